import Verif.Spec.JsonText
import Verif.Proofs.JsonInt
import Verif.Proofs.JsonString
/-
What the lexer does on the texts of JSON scalars: skipping, copying and reading.
-/
namespace Thors
open Spec StrIn

/-- The input is good and stands in front of `text`. -/
def AtI (text : Bytes) (s : StrIn) : Prop := s.rest = text ∧ s.good = true ∧ s.pos ≤ s.data.length

theorem at_adv {t post : Bytes} {s : StrIn} (h : AtI (t ++ post) s) : AtI post { s with pos := s.pos + t.length, good := true } :=
  ⟨rest_adv h.1 true, rfl, pos_adv h.1 h.2.2⟩

theorem at_len {t : Bytes} {s : StrIn} (h : AtI t s) : t.length + s.pos = s.data.length := by
  have h1 := congrArg List.length h.1
  unfold StrIn.rest at h1
  simp only [List.length_drop] at h1
  have := h.2.2
  omega

theorem at_get {c : Byte} {t : Bytes} {s : StrIn} (h : AtI (c :: t) s) :
    ∃ s', s.get = (sext c, s') ∧ AtI t s' ∧ s'.unget = s ∧ s'.data = s.data := by
  obtain ⟨h1, h2⟩ := get_cons h.2.1 h.1
  have hlt := rest_pos h.1
  refine ⟨_, h1, ⟨h2, h.2.1, hlt⟩, ?_, rfl⟩
  unfold StrIn.unget
  obtain ⟨d, p, g⟩ := s
  have := h.2.2
  have := h.2.1
  simp_all

theorem at_get_nil {s : StrIn} (h : AtI [] s) : s.get = (EOFv, s) := by
  have := at_len h
  unfold StrIn.get
  rw [if_neg]
  rintro ⟨-, h2⟩
  simp at this
  omega

theorem spaces_append {w t : Bytes} (hw : ∀ c ∈ w, isSpace c = true) : spaces (w ++ t) = w.length + spaces t := by
  induction w with
  | nil => simp
  | cons c w ih =>
    simp only [List.cons_append, spaces, hw c (by simp), if_true, List.length_cons]
    rw [ih (fun c hc => hw c (by simp [hc]))]
    omega

theorem at_readChar {w : Bytes} {c : Byte} {t : Bytes} {s : StrIn} (h : AtI (w ++ c :: t) s) (hw : ∀ c ∈ w, isSpace c = true)
    (hc : isSpace c = false) : ∃ s', s.readChar = (c, s') ∧ AtI t s' ∧ AtI (c :: t) s'.unget := by
  have hl := at_len h
  simp only [List.length_append, List.length_cons] at hl
  have hr := h.1
  unfold StrIn.rest at hr
  have hsp : spaces (s.data.drop s.pos) = w.length := by
    rw [hr, spaces_append hw]; simp [spaces, hc]
  have h2 : s.data.drop (s.pos + w.length) = c :: t := by
    rw [← List.drop_drop, hr]; simp
  have h3 : s.data.getD (s.pos + w.length) 0 = c := by
    have := congrArg (fun l => l[0]?) h2
    simp only [List.getElem?_drop] at this
    rw [List.getD_eq_getElem?_getD]
    simp at this
    simp [this]
  have h4 : s.data.drop (s.pos + w.length + 1) = t := by
    rw [← List.drop_drop, h2]; simp
  unfold StrIn.readChar
  rw [if_pos h.2.2, hsp]
  simp only
  rw [if_pos (by omega), h3]
  refine ⟨_, rfl, ⟨h4, ?_, ?_⟩, ?_⟩
  · simp; omega
  · simp only; omega
  · unfold StrIn.unget
    simp only [Nat.add_one_sub_one, if_neg (Nat.succ_ne_zero (s.pos + w.length))]
    refine ⟨h2, ?_, ?_⟩
    · simp; omega
    · simp only; omega

theorem ws_space {w : Bytes} (h : Ws w) : ∀ c ∈ w, isSpace c = true := by
  intro c hc
  rcases h c hc with rfl | rfl | rfl | rfl <;> decide

theorem at_ignore {t post : Bytes} {s : StrIn} (h : AtI (t ++ post) s) : AtI post (s.ignore t.length) := by
  have := at_adv h
  unfold StrIn.ignore
  have h2 := this.2.2
  simp only at h2
  rw [decide_eq_true h2]
  exact this

/-- One `get` was made in front of `text`. -/
def Peeked (text : Bytes) (next : Int) (s : StrIn) : Prop :=
  (text = [] ∧ next = EOFv ∧ AtI [] s) ∨ ∃ c cs, text = c :: cs ∧ next = sext c ∧ AtI cs s ∧ AtI (c :: cs) s.unget

theorem peeked_of_get {text : Bytes} {s : StrIn} (h : AtI text s) : ∃ next s', s.get = (next, s') ∧ Peeked text next s' ∧ s'.data = s.data := by
  cases text with
  | nil => exact ⟨_, _, at_get_nil h, .inl ⟨rfl, rfl, h⟩, rfl⟩
  | cons c cs =>
    obtain ⟨s', h1, h2, h3, h4⟩ := at_get h
    exact ⟨_, _, h1, .inr ⟨c, cs, rfl, rfl, h2, h3 ▸ h⟩, h4⟩

theorem peeked_len {text : Bytes} {next : Int} {s : StrIn} (h : Peeked text next s) : text.length ≤ s.data.length + 1 := by
  rcases h with ⟨rfl, -, -⟩ | ⟨c, cs, rfl, -, h, -⟩
  · simp
  · have := at_len h; simp; omega

theorem peeked_norm {text : Bytes} {next : Int} {s : StrIn} (h : Peeked text next s) : sext (toChar next) = next := by
  rcases h with ⟨-, rfl, -⟩ | ⟨c, cs, -, rfl, -, -⟩
  · decide
  · rw [toChar_sext]

theorem isDigitI_sext (c : Byte) : Lexer.isDigitI (sext c) = isDigit c := by
  revert c; apply forall_byte; decide +kernel

theorem digitLoop_at (ds : Bytes) : ∀ (fuel : Nat) (post : Bytes) (next : Int) (s : StrIn) (buf : Bytes),
    (∀ c ∈ ds, isDigit c = true) → (∀ c ps, post = c :: ps → isDigit c = false) → Peeked (ds ++ post) next s → ds.length < fuel →
    ∃ next' s', Lexer.digitLoop fuel s next buf = .ok (next', buf ++ ds, s') ∧ Peeked post next' s' ∧ s'.data = s.data := by
  induction ds with
  | nil =>
    intro fuel post next s buf _ hp h hf
    cases fuel with
    | zero => simp at hf
    | succ fuel =>
      refine ⟨next, s, ?_, h, rfl⟩
      unfold Lexer.digitLoop
      rw [if_neg]
      · simp
      · rcases h with ⟨-, rfl, -⟩ | ⟨c, cs, hc, rfl, -, -⟩
        · decide
        · rw [isDigitI_sext, hp c cs (by simpa using hc)]; simp
  | cons d ds ih =>
    intro fuel post next s buf hd hp h hf
    cases fuel with
    | zero => simp at hf
    | succ fuel =>
      rcases h with ⟨h, -, -⟩ | ⟨c, cs, hc, rfl, h1, -⟩
      · simp at h
      · simp only [List.cons_append, List.cons.injEq] at hc
        obtain ⟨rfl, rfl⟩ := hc
        obtain ⟨n, s1, hg, hpk, hdat⟩ := peeked_of_get h1
        unfold Lexer.digitLoop
        rw [isDigitI_sext, if_pos (hd d (by simp)), hg]
        simp only [peeked_norm hpk, toChar_sext]
        obtain ⟨n', s', e1, e2, e3⟩ := ih fuel post n s1 (buf ++ [d]) (fun c hc => hd c (by simp [hc])) hp hpk (by simpa using hf)
        exact ⟨n', s', by rw [e1]; simp, e2, e3.trans hdat⟩

theorem readDigits_at {ds post : Bytes} {next : Int} {s : StrIn} (buf : Bytes) (hd : Digits ds)
    (hp : ∀ c ps, post = c :: ps → isDigit c = false) (h : Peeked (ds ++ post) next s) :
    ∃ next' s', Lexer.readDigits s next buf = .ok (next', buf ++ ds, s') ∧ Peeked post next' s' ∧ s'.data = s.data := by
  obtain ⟨n, hn⟩ := hd
  obtain ⟨h1, h2, -⟩ := dec_iff.mp hn
  unfold Lexer.readDigits
  rw [if_neg]
  · have hl := peeked_len h
    simp at hl
    exact digitLoop_at ds _ post next s buf h2 hp h (by omega)
  · cases ds with
    | nil => exact absurd rfl h1
    | cons d ds =>
      rcases h with ⟨h, -, -⟩ | ⟨c, cs, hc, rfl, -, -⟩
      · simp at h
      · simp only [List.cons_append, List.cons.injEq] at hc
        obtain ⟨rfl, -⟩ := hc
        rw [isDigitI_sext, h2 d (by simp)]; simp

/-- A text that does not continue the number in front of it, and does not start with the byte the stream
layer takes for the end of the input. -/
def valueEnds : Bytes → Prop
  | [] => True
  | c :: t => numberEnds (c :: t) ∧ c ≠ 0xFF

instance (t : Bytes) : Decidable (valueEnds t) := by unfold valueEnds; split <;> infer_instance

theorem valueEnds_number {t : Bytes} (h : valueEnds t) : numberEnds t := by
  cases t with
  | nil => exact h
  | cons c t => exact h.1

/-- What may follow a value: anything after a value that is not a number. -/
def Ends (v : JTree) (post : Bytes) : Prop :=
  match v with
  | .scalar (.int _ _) => valueEnds post
  | .scalar (.frac _ _) => valueEnds post
  | _ => True

theorem Ends.of {v : JTree} {post : Bytes} (h : valueEnds post) : Ends v post := by
  unfold Ends
  split <;> first | exact h | trivial

theorem valueEnds_sep {c : Byte} {t : Bytes} (h : c = 0x20 ∨ c = 0x09 ∨ c = 0x0A ∨ c = 0x0D ∨ c = 0x2C ∨ c = 0x5D ∨ c = 0x7D) : valueEnds (c :: t) := by
  rcases h with h | h | h | h | h | h | h <;> (subst h; simp [valueEnds, numberEnds])

/-- The value of `next` identifies the next character. -/
theorem peeked_head {text : Bytes} {next : Int} {s : StrIn} (h : Peeked text next s) (b : Byte) (hb : b ≠ 0xFF) :
    next = sext b ↔ ∃ cs, text = b :: cs := by
  rcases h with ⟨rfl, rfl, -⟩ | ⟨c, cs, rfl, rfl, -, -⟩
  · constructor
    · intro h
      exact absurd (sext_inj (h.symm.trans (show EOFv = sext 0xFF by decide))) hb
    · simp
  · constructor
    · intro h; exact ⟨cs, by rw [sext_inj h]⟩
    · rintro ⟨cs', h⟩; rw [(List.cons.inj h).1]

theorem peeked_eof {text : Bytes} {next : Int} {s : StrIn} (h : Peeked text next s) (hff : ∀ cs, text ≠ 0xFF :: cs) :
    next = EOFv ↔ text = [] := by
  rcases h with ⟨rfl, rfl, -⟩ | ⟨c, cs, rfl, rfl, -, -⟩
  · simp
  · simp only [reduceCtorEq, iff_false]
    intro h
    have := sext_inj (h.trans (show EOFv = sext 0xFF by decide))
    subst this
    exact hff cs rfl

theorem peeked_cons {c : Byte} {t : Bytes} {next : Int} {s : StrIn} (h : Peeked (c :: t) next s) : next = sext c ∧ AtI t s := by
  rcases h with ⟨h, -, -⟩ | ⟨c', cs, hc, rfl, h, -⟩
  · simp at h
  · obtain ⟨rfl, rfl⟩ := List.cons.inj hc
    exact ⟨rfl, h⟩

theorem digits_head {ds : Bytes} (h : Digits ds) : ∃ d t, ds = d :: t ∧ isDigit d = true := by
  obtain ⟨n, hn⟩ := h
  obtain ⟨h1, h2, -⟩ := dec_iff.mp hn
  cases ds with
  | nil => exact absurd rfl h1
  | cons d t => exact ⟨d, t, rfl, h2 d (by simp)⟩

theorem frac_ends {f : Bytes} (h : Frac f) : ∀ c ps, f = c :: ps → isDigit c = false ∧ c = 0x2E := by
  rintro c ps rfl
  rcases h with h | ⟨ds, -, h⟩
  · simp at h
  · rw [(List.cons.inj h).1]; decide

theorem expo_ends {f : Bytes} (h : Expo f) : ∀ c ps, f = c :: ps → isDigit c = false ∧ (c = 0x65 ∨ c = 0x45) := by
  rintro c ps rfl
  rcases h with h | ⟨e, sg, ds, he, -, -, h⟩
  · simp at h
  · rw [(List.cons.inj h).1]; exact ⟨by rcases he with rfl | rfl <;> decide, he⟩

/-- The parts of an integer literal without superfluous zeros. -/
theorem lit_parts {a : Bytes} {i : Int} (h : IntLit a i) (hz : ¬ litLeadingZero a) :
    ∃ sg ip, (sg = [] ∨ sg = [0x2D]) ∧ Digits ip ∧ a = sg ++ ip ∧ (∀ t, ip = 0x30 :: t → t = []) := by
  have hlz : ∀ t : Bytes, ¬ leadingZero t → ∀ u, t = 0x30 :: u → u = [] := by
    rintro t ht u rfl
    cases u with
    | nil => rfl
    | cons c u => exact absurd trivial ht
  cases h with
  | pos h =>
    obtain ⟨d, t, rfl, hd⟩ := digits_head ⟨_, h⟩
    refine ⟨[], _, .inl rfl, ⟨_, h⟩, rfl, hlz _ ?_⟩
    unfold litLeadingZero at hz
    split at hz
    · rename_i heq
      rw [(List.cons.inj heq).1] at hd
      exact absurd hd (by decide)
    · exact hz
  | neg h => exact ⟨[0x2D], _, .inr rfl, ⟨_, h⟩, rfl, hlz _ hz⟩

theorem digit_ne {c : Byte} (h : isDigit c = true) : c ≠ 0x2D ∧ c ≠ 0x2B ∧ c ≠ 0x2E ∧ c ≠ 0x65 ∧ c ≠ 0x45 ∧ c ≠ 0xFF ∧ c ≠ 0x22 ∧ isSpace c = false ∧ isPunct c = false ∧
    Lexer.classify c = .number := by
  revert h; revert c; apply forall_byte; decide +kernel

/-- `readNumber` consumes exactly a number. -/
theorem readNumber_at {s : StrIn} {a f e post : Bytes} {i : Int} (ha : IntLit a i) (hz : ¬ litLeadingZero a) (hf : Frac f) (he : Expo e)
    (hp : valueEnds post) (h : AtI (a ++ (f ++ e) ++ post) s) :
    ∃ s', Lexer.readNumber s = .ok (a ++ (f ++ e), s') ∧ AtI post s' := by
  obtain ⟨sg, ip, hsg, hip, rfl, hz0⟩ := lit_parts ha hz
  have hpd := numberEnds_digit (valueEnds_number hp)
  have hep : ∀ c ps, e ++ post = c :: ps → isDigit c = false ∧ c ≠ 0x2E ∧ c ≠ 0xFF := by
    intro c ps hc
    cases e with
    | nil =>
      refine ⟨hpd c ps hc, ?_⟩
      simp only [List.nil_append] at hc
      subst hc
      exact ⟨hp.1.2.1, hp.2⟩
    | cons d e =>
      have := expo_ends he d e rfl
      rw [← (List.cons.inj hc).1]
      refine ⟨this.1, ?_⟩
      rcases this.2 with h | h <;> (subst h; decide)
  have hfep : ∀ c ps, f ++ (e ++ post) = c :: ps → isDigit c = false ∧ c ≠ 0xFF := by
    intro c ps hc
    cases f with
    | nil => exact ⟨(hep c ps hc).1, (hep c ps hc).2.2⟩
    | cons d f =>
      rw [← (List.cons.inj hc).1]
      have := frac_ends hf d f rfl
      exact ⟨this.1, by rw [this.2]; decide⟩
  obtain ⟨d, ipt, hipe, hdig⟩ := digits_head hip
  have hdn := digit_ne hdig
  rw [show sg ++ ip ++ (f ++ e) ++ post = sg ++ (ip ++ (f ++ (e ++ post))) by simp] at h
  -- sign
  have hsign : ∃ next s1, (do
      let (next, s) := s.get
      (if next = 0x2D ∨ next = 0x2B then
        let (n, s) := s.get
        if n = EOFv then throwStd else .ok (n, [toChar next], s)
      else .ok (next, [], s) : Res (Int × Bytes × StrIn))) = .ok (next, sg, s1) ∧ Peeked (ip ++ (f ++ (e ++ post))) next s1 := by
    rcases hsg with rfl | rfl
    · obtain ⟨n, s1, hg, hpk, -⟩ := peeked_of_get h
      refine ⟨n, s1, ?_, hpk⟩
      rw [hg]
      simp only
      rw [if_neg]
      have h1 := peeked_head hpk 0x2D (by decide)
      have h2 := peeked_head hpk 0x2B (by decide)
      rintro (h' | h')
      · obtain ⟨cs, hcs⟩ := h1.mp (h'.trans (by decide))
        subst hipe
        exact hdn.1 (List.cons.inj hcs).1
      · obtain ⟨cs, hcs⟩ := h2.mp (h'.trans (by decide))
        subst hipe
        exact hdn.2.1 (List.cons.inj hcs).1
    · obtain ⟨s1, hg, h1, -, -⟩ := at_get h
      obtain ⟨n, s2, hg2, hpk, -⟩ := peeked_of_get h1
      refine ⟨n, s2, ?_, hpk⟩
      rw [hg]
      simp only
      rw [if_pos (by decide), hg2]
      simp only
      rw [if_neg]
      · rfl
      · intro hn
        subst hipe
        rcases (peeked_eof hpk (by intro cs hcs; exact hdn.2.2.2.2.2.1 (List.cons.inj hcs).1)).mp hn
  obtain ⟨n1, s1, e1, p1⟩ := hsign
  -- integer part
  have hint : ∃ next s2, (if n1 = 0x30 then
      let (n, s) := s1.get
      .ok (n, sg ++ [toChar n1], s)
    else Lexer.readDigits s1 n1 sg : Res (Int × Bytes × StrIn)) = .ok (next, sg ++ ip, s2) ∧ Peeked (f ++ (e ++ post)) next s2 := by
    by_cases h0 : n1 = 0x30
    · rw [if_pos h0]
      obtain ⟨cs, hcs⟩ := (peeked_head p1 0x30 (by decide)).mp (h0.trans (by decide))
      subst hipe
      have hd0 := (List.cons.inj hcs).1
      subst hd0
      have := hz0 _ rfl
      subst this
      obtain ⟨-, hat⟩ := peeked_cons p1
      obtain ⟨n, s2, hg, hpk, -⟩ := peeked_of_get hat
      refine ⟨n, s2, ?_, hpk⟩
      rw [hg, h0]
      rfl
    · rw [if_neg h0]
      obtain ⟨n, s2, e2, p2, -⟩ := readDigits_at sg hip (fun c ps hc => (hfep c ps hc).1) p1
      exact ⟨n, s2, e2, p2⟩
  obtain ⟨n2, s2, e2, p2⟩ := hint
  -- fraction
  have hfrac : ∃ next s3, (if n2 = 0x2E then
      let (n, s) := s2.get
      if n = EOFv then throwStd else Lexer.readDigits s n (sg ++ ip ++ [toChar n2])
    else .ok (n2, sg ++ ip, s2) : Res (Int × Bytes × StrIn)) = .ok (next, sg ++ ip ++ f, s3) ∧ Peeked (e ++ post) next s3 := by
    rcases hf with rfl | ⟨ds, hds, rfl⟩
    · rw [if_neg]
      · exact ⟨n2, s2, by simp, p2⟩
      · intro hn
        obtain ⟨cs, hcs⟩ := (peeked_head p2 0x2E (by decide)).mp (hn.trans (by decide))
        exact (hep _ _ hcs).2.1 rfl
    · obtain ⟨rfl, hat⟩ := peeked_cons p2
      rw [if_pos (by decide)]
      obtain ⟨n, s3, hg, hpk, -⟩ := peeked_of_get hat
      rw [hg]
      simp only
      obtain ⟨d', t', hd', hdig'⟩ := digits_head hds
      rw [if_neg]
      · rw [toChar_sext]
        obtain ⟨n', s4, e3, p3, -⟩ := readDigits_at (sg ++ ip ++ [0x2E]) hds (fun c ps hc => (hep c ps hc).1) hpk
        exact ⟨n', s4, by rw [e3]; simp, p3⟩
      · intro hn
        subst hd'
        rcases (peeked_eof hpk (by intro cs hcs; exact (digit_ne hdig').2.2.2.2.2.1 (List.cons.inj hcs).1)).mp hn
  obtain ⟨n3, s3, e3, p3⟩ := hfrac
  -- exponent
  have hexp : ∃ next s4, (if n3 = 0x65 ∨ n3 = 0x45 then
      let (n, s) := s3.get
      if n = EOFv then throwStd else
      if n = 0x2D ∨ n = 0x2B then
        let (m, s) := s.get
        if m = EOFv then throwStd else Lexer.readDigits s m (sg ++ ip ++ f ++ [toChar n3] ++ [toChar n])
      else Lexer.readDigits s n (sg ++ ip ++ f ++ [toChar n3])
    else .ok (n3, sg ++ ip ++ f, s3) : Res (Int × Bytes × StrIn)) = .ok (next, sg ++ ip ++ f ++ e, s4) ∧ Peeked post next s4 := by
    rcases he with rfl | ⟨ec, es, ds, hec, hes, hds, rfl⟩
    · rw [if_neg]
      · exact ⟨n3, s3, by simp, p3⟩
      · have hne := valueEnds_number hp
        rintro (hn | hn)
        · obtain ⟨cs, hcs⟩ := (peeked_head p3 0x65 (by decide)).mp (hn.trans (by decide))
          simp only [List.nil_append] at hcs
          subst hcs
          exact hne.2.2.1 rfl
        · obtain ⟨cs, hcs⟩ := (peeked_head p3 0x45 (by decide)).mp (hn.trans (by decide))
          simp only [List.nil_append] at hcs
          subst hcs
          exact hne.2.2.2 rfl
    · obtain ⟨rfl, hat⟩ := peeked_cons p3
      rw [if_pos (by rcases hec with rfl | rfl <;> decide)]
      obtain ⟨n, s4, hg, hpk, -⟩ := peeked_of_get hat
      rw [hg]
      simp only
      obtain ⟨d', t', hd', hdig'⟩ := digits_head hds
      have hdn' := digit_ne hdig'
      rw [toChar_sext]
      rcases hes with rfl | rfl | rfl
      · rw [if_neg, if_neg]
        · obtain ⟨n', s5, e4, p4, -⟩ := readDigits_at (sg ++ ip ++ f ++ [ec]) hds hpd hpk
          exact ⟨n', s5, by rw [e4]; simp, p4⟩
        · rintro (hn | hn)
          · obtain ⟨cs, hcs⟩ := (peeked_head hpk 0x2D (by decide)).mp (hn.trans (by decide))
            subst hd'
            exact hdn'.1 (List.cons.inj hcs).1
          · obtain ⟨cs, hcs⟩ := (peeked_head hpk 0x2B (by decide)).mp (hn.trans (by decide))
            subst hd'
            exact hdn'.2.1 (List.cons.inj hcs).1
        · intro hn
          subst hd'
          rcases (peeked_eof hpk (by intro cs hcs; exact hdn'.2.2.2.2.2.1 (List.cons.inj hcs).1)).mp hn
      all_goals
        obtain ⟨rfl, hat2⟩ := peeked_cons hpk
        rw [if_neg (by decide), if_pos (by decide)]
        obtain ⟨m, s5, hg2, hpk2, -⟩ := peeked_of_get hat2
        rw [hg2]
        simp only
        rw [if_neg]
        · rw [toChar_sext]
          obtain ⟨n', s6, e4, p4, -⟩ := readDigits_at (sg ++ ip ++ f ++ [ec] ++ [_]) hds hpd hpk2
          exact ⟨n', s6, by rw [e4]; simp, p4⟩
        · intro hn
          subst hd'
          rcases (peeked_eof hpk2 (by intro cs hcs; exact hdn'.2.2.2.2.2.1 (List.cons.inj hcs).1)).mp hn
  obtain ⟨n4, s4, e4, p4⟩ := hexp
  have hfin : Lexer.readNumber s = if n4 ≠ EOFv then .ok (sg ++ ip ++ f ++ e, s4.unget) else .ok (sg ++ ip ++ f ++ e, s4) := by
    unfold Lexer.readNumber
    rcases hget : s.get with ⟨g1, g2⟩
    rw [hget] at e1
    simp only at e1 ⊢
    rw [e1]
    simp only [Res.ok_bind]
    rw [e2]
    simp only [Res.ok_bind]
    rw [e3]
    simp only [Res.ok_bind]
    rw [e4]
    simp only [Res.ok_bind]
    rfl
  rw [hfin]
  have hff : ∀ cs, post ≠ 0xFF :: cs := by
    rintro cs rfl
    exact hp.2 rfl
  by_cases hE : n4 = EOFv
  · have := (peeked_eof p4 hff).mp hE
    subst this
    rw [if_neg (by simpa using hE)]
    refine ⟨s4, by simp, ?_⟩
    rcases p4 with ⟨-, -, h⟩ | ⟨c, cs, h, -⟩
    · exact h
    · simp at h
  · rw [if_pos hE]
    refine ⟨_, by simp; rfl, ?_⟩
    rcases p4 with ⟨-, h, -⟩ | ⟨c, cs, rfl, -, -, h⟩
    · exact absurd h hE
    · exact h

/-! ### Strings -/

/-- Last byte of `last` followed by `t`. -/
def lastOf (last : Byte) (t : Bytes) : Byte := t.getLast?.getD last

theorem lastOf_append (last : Byte) (a b : Bytes) : lastOf last (a ++ b) = lastOf (lastOf last a) b := by
  unfold lastOf
  rw [List.getLast?_append]
  cases b.getLast? <;> simp

/-- Scanning over a piece of a string body. -/
def Scans (ctl : Bool) (t : Bytes) : Prop :=
  ∀ (fuel : Nat) (s : StrIn) (last : Byte) (acc post : Bytes), AtI (t ++ post) s → t.length ≤ fuel →
    ∃ s', Lexer.scanQuote ctl fuel s last acc = Lexer.scanQuote ctl (fuel - t.length) s' (lastOf last t) (acc ++ t) ∧ AtI post s' ∧ s'.data = s.data

theorem scans_nil {ctl} : Scans ctl [] := by
  intro fuel s last acc post h _
  exact ⟨s, by simp [lastOf], h, rfl⟩

theorem scans_append {ctl : Bool} {a b : Bytes} (ha : Scans ctl a) (hb : Scans ctl b) : Scans ctl (a ++ b) := by
  intro fuel s last acc post h hf
  rw [List.append_assoc] at h
  simp only [List.length_append] at hf
  obtain ⟨s1, e1, h1, d1⟩ := ha fuel s last acc (b ++ post) h (by omega)
  obtain ⟨s2, e2, h2, d2⟩ := hb (fuel - a.length) s1 (lastOf last a) (acc ++ a) post h1 (by omega)
  refine ⟨s2, ?_, h2, d2.trans d1⟩
  rw [e1, e2, lastOf_append]
  simp [Nat.sub_sub]

/-- One character, if the scan does not stop at it. -/
theorem scanQuote_char {ctl : Bool} {c : Byte} {fuel : Nat} {s : StrIn} {last : Byte} (acc : Bytes) {post : Bytes} (h : AtI (c :: post) s)
    (hff : c ≠ 0xFF) (hq : c = 0x22 → last = 0x5C) (hc : ctl = true → 0x20 ≤ c.toNat ∧ c < 0x80) :
    ∃ s', Lexer.scanQuote ctl (fuel + 1) s last acc = Lexer.scanQuote ctl fuel s' c (acc ++ [c]) ∧ AtI post s' ∧ s'.data = s.data := by
  obtain ⟨s1, e1, h1, -, d1⟩ := at_get h
  refine ⟨s1, ?_, h1, d1⟩
  conv => lhs; unfold Lexer.scanQuote
  rw [e1]
  simp only
  have hE : sext c ≠ EOFv := fun h => hff (sext_inj (h.trans (show EOFv = sext 0xFF by decide)))
  rw [if_pos, if_neg, toChar_sext]
  · rintro ⟨h1, h2⟩
    obtain ⟨h3, h4⟩ := hc h1
    have h5 : c.toNat < 128 := h4
    unfold sext at h2
    rw [if_pos h5] at h2
    omega
  · refine ⟨hE, ?_⟩
    rintro ⟨h1, h2⟩
    exact h2 (hq (sext_inj (h1.trans (show (0x22 : Int) = sext 0x22 by decide))))

theorem scans_char {ctl : Bool} {c : Byte} (hff : c ≠ 0xFF) (hq : c ≠ 0x22) (hc : ctl = true → 0x20 ≤ c.toNat ∧ c < 0x80) : Scans ctl [c] := by
  intro fuel s last acc post h hf
  obtain ⟨f, rfl⟩ : ∃ f, fuel = f + 1 := ⟨fuel - 1, by simp at hf; omega⟩
  exact scanQuote_char acc h hff (fun h => absurd h hq) hc

/-- An escape: backslash and any character. -/
theorem scans_esc {ctl : Bool} {c : Byte} (hff : c ≠ 0xFF) (hc : ctl = true → 0x20 ≤ c.toNat ∧ c < 0x80) : Scans ctl [0x5C, c] := by
  intro fuel s last acc post h hf
  obtain ⟨f, rfl⟩ : ∃ f, fuel = f + 2 := ⟨fuel - 2, by simp at hf; omega⟩
  obtain ⟨s1, e1, h1, d1⟩ := scanQuote_char (ctl := ctl) (fuel := f + 1) (last := last) acc h (by decide) (fun h => absurd h (by decide)) (fun _ => by decide)
  obtain ⟨s2, e2, h2, d2⟩ := scanQuote_char (ctl := ctl) (fuel := f) (last := 0x5C) (acc ++ [0x5C]) h1 hff (fun _ => rfl) hc
  refine ⟨s2, ?_, h2, d2.trans d1⟩
  rw [e1, e2]
  simp [lastOf]

/-- The bytes a scan accepts. -/
def scanOk (ctl : Bool) (c : Byte) : Prop := c ≠ 0xFF ∧ (ctl = true → c < 0x80)

theorem hex_scan {c v} (h : Hex c v) (ctl : Bool) : c ≠ 0xFF ∧ c ≠ 0x22 ∧ (ctl = true → 0x20 ≤ c.toNat ∧ c < 0x80) := by
  have hx : (match convertHexToDec c with | .ok _ => true | _ => false) = true := by rw [hex_convert.mp h]
  have : ∀ c : Byte, (match convertHexToDec c with | .ok _ => true | _ => false) = true → c ≠ 0xFF ∧ c ≠ 0x22 ∧ (0x20 ≤ c.toNat ∧ c < 0x80) := by
    apply forall_byte; decide +kernel
  have := this c hx
  exact ⟨this.1, this.2.1, fun _ => this.2.2⟩

theorem hex4_scans {h : Bytes} {v : Nat} (hv : Hex4 h v) (ctl : Bool) : Scans ctl h := by
  cases hv with
  | mk ha hb hc hd =>
    have := fun {c v} (h : Hex c v) => scans_char (hex_scan h ctl).1 (hex_scan h ctl).2.1 (hex_scan h ctl).2.2
    exact scans_append (this ha) (scans_append (this hb) (scans_append (this hc) (this hd)))

theorem uni_scans {h : Bytes} {v : Nat} (hv : Hex4 h v) (ctl : Bool) : Scans ctl (0x5C :: 0x75 :: h) :=
  scans_append (a := [0x5C, 0x75]) (scans_esc (by decide) (fun _ => by decide)) (hex4_scans hv ctl)

theorem item_scans {t o : Bytes} (h : BasicItem t o) {ctl : Bool} (hok : ∀ c ∈ t, scanOk ctl c) : Scans ctl t := by
  cases h with
  | raw c h1 h2 h3 =>
    have := hok c (by simp)
    exact scans_char this.1 h2 (fun hc => ⟨h1, this.2 hc⟩)
  | short h => exact scans_esc (by cases h <;> decide) (fun _ => by cases h <;> decide)
  | uni hv hs => exact uni_scans hv ctl

theorem body_scans {pr : Nat → Nat → Bytes} {t o : Bytes} (h : Body pr t o) {ctl : Bool} (hok : ∀ c ∈ t, scanOk ctl c) : Scans ctl t := by
  induction h with
  | nil => exact scans_nil
  | basic h hs ih =>
    exact scans_append (item_scans h fun c hc => hok c (by simp [hc])) (ih fun c hc => hok c (by simp [hc]))
  | pair h hs ih =>
    refine scans_append ?_ (ih fun c hc => hok c (by simp [hc]))
    cases h with
    | mk ha hb h3 h4 => exact scans_append (a := 0x5C :: 0x75 :: _) (uni_scans ha ctl) (uni_scans hb ctl)

/-- The scan stops behind the closing quote. -/
theorem scanQuote_body {pr : Nat → Nat → Bytes} {t o : Bytes} (h : Body pr t o) {ctl : Bool} (hok : ∀ c ∈ t, scanOk ctl c)
    (hl : t.getLast? ≠ some 0x5C) {s : StrIn} {post : Bytes} (hat : AtI (t ++ 0x22 :: post) s) :
    ∃ s', Lexer.scanQuote ctl (s.data.length + 1) s 0x22 [] = .ok (t, s') ∧ AtI post s' := by
  have hlen := at_len hat
  simp at hlen
  obtain ⟨s1, e1, h1, d1⟩ := body_scans h hok (s.data.length + 1) s 0x22 [] (0x22 :: post) hat (by omega)
  obtain ⟨s2, e2, h2, -, -⟩ := at_get h1
  refine ⟨s2, ?_, h2⟩
  rw [e1]
  obtain ⟨f, hf⟩ : ∃ f, s.data.length + 1 - t.length = f + 1 := ⟨s.data.length - t.length, by omega⟩
  rw [hf]
  unfold Lexer.scanQuote
  rw [e2]
  simp only [List.nil_append]
  have hlast : lastOf 0x22 t ≠ 0x5C := by
    unfold lastOf
    cases hh : t.getLast? with
    | none => decide
    | some c => rw [hh] at hl; simpa using hl
  rw [if_neg, if_neg (by decide)]
  rintro ⟨-, h'⟩
  exact h' ⟨by decide, hlast⟩

end Thors
