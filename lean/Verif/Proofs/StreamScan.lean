import Verif.Model.JsonStream
import Verif.Spec.Stream
import Verif.Proofs.JsonSource
/-
The JSON lexer over a stream: single lexemes.
-/
namespace Thors
open Spec StrIn

/-- The stream is in front of `text`. Only at the end may one of its state bits be set. -/
structure AtS (text : Bytes) (i : IStr) : Prop where
  rest : i.rest = text
  le : i.pos ≤ i.data.length
  seek : i.seekable = true
  ok : text ≠ [] → i.eof = false ∧ i.fail = false

/-- In front of `text` and not failed. -/
def OkS (text : Bytes) (i : IStr) : Prop := AtS text i ∧ i.fail = false

theorem ats_len {t : Bytes} {i : IStr} (h : AtS t i) : t.length + i.pos = i.data.length := by
  have h1 := congrArg List.length h.rest
  unfold IStr.rest at h1
  simp only [List.length_drop] at h1
  have := h.le
  omega

theorem ats_good {c : Byte} {t : Bytes} {i : IStr} (h : AtS (c :: t) i) : i.good = true := by
  obtain ⟨h1, h2⟩ := h.ok (by simp)
  simp [IStr.good, h1, h2]

/-- Moving forward over something. -/
theorem oks_adv {t post : Bytes} {i : IStr} (h : AtS (t ++ post) i) (ht : t ≠ []) : OkS post { i with pos := i.pos + t.length } := by
  have hl := ats_len h
  obtain ⟨h1, h2⟩ := h.ok (by simp [ht])
  simp only [List.length_append] at hl
  refine ⟨⟨?_, by simp only; omega, h.seek, fun _ => ⟨h1, h2⟩⟩, h2⟩
  have := h.rest
  unfold IStr.rest at this ⊢
  simp only
  rw [← List.drop_drop, this]
  simp

theorem ats_head {c : Byte} {t : Bytes} {i : IStr} (h : AtS (c :: t) i) : i.pos < i.data.length ∧ i.data.getD i.pos 0 = c := by
  have hl := ats_len h
  simp only [List.length_cons] at hl
  have hlt : i.pos < i.data.length := by omega
  refine ⟨hlt, ?_⟩
  have := h.rest
  unfold IStr.rest at this
  rw [List.drop_eq_getElem_cons hlt] at this
  simp [hlt]
  exact (List.cons.inj this).1

theorem ats_get {c : Byte} {t : Bytes} {i : IStr} (h : AtS (c :: t) i) :
    ∃ i', i.get = ((c.toNat : Int), i') ∧ OkS t i' ∧ i'.unget = i ∧ i'.data = i.data := by
  obtain ⟨hlt, hc⟩ := ats_head h
  have hg := ats_good h
  obtain ⟨h1, h2⟩ := h.ok (by simp)
  refine ⟨{ i with pos := i.pos + 1 }, ?_, oks_adv (t := [c]) h (by simp), ?_, rfl⟩
  · unfold IStr.get
    rw [if_neg (by simp [hg]), if_pos hlt, hc]
  · unfold IStr.unget
    simp only [h2, Bool.false_eq_true, if_false]
    rw [if_neg (by omega)]
    cases i
    simp only at h1 h2
    simp [h1, h2]

theorem ats_get_nil {i : IStr} (h : AtS [] i) : ∃ i', i.get = (EOFv, i') ∧ AtS [] i' ∧ i'.data = i.data := by
  have hl := ats_len h
  simp only [List.length_nil] at hl
  unfold IStr.get
  by_cases hg : i.good = false
  · rw [if_pos hg]
    exact ⟨_, rfl, ⟨h.rest, h.le, h.seek, fun hh => absurd rfl hh⟩, rfl⟩
  · rw [if_neg hg, if_neg (by omega)]
    exact ⟨_, rfl, ⟨h.rest, h.le, h.seek, fun hh => absurd rfl hh⟩, rfl⟩

theorem ats_peek {c : Byte} {t : Bytes} {i : IStr} (h : AtS (c :: t) i) : i.peek = ((c.toNat : Int), i) := by
  obtain ⟨hlt, hc⟩ := ats_head h
  unfold IStr.peek
  rw [if_neg (by simp [ats_good h]), if_pos hlt, hc]

theorem oks_peek_nil {i : IStr} (h : OkS [] i) : ∃ i', i.peek = (EOFv, i') ∧ AtS [] i' ∧ i'.data = i.data ∧ (i.eof = false → i' = { i with eof := true }) := by
  have hl := ats_len h.1
  simp only [List.length_nil] at hl
  unfold IStr.peek
  by_cases hg : i.good = false
  · rw [if_pos hg]
    refine ⟨_, rfl, ⟨h.1.rest, h.1.le, h.1.seek, fun hh => absurd rfl hh⟩, rfl, ?_⟩
    intro he
    simp [IStr.good, he, h.2] at hg
  · rw [if_neg hg, if_neg (by omega)]
    exact ⟨_, rfl, ⟨h.1.rest, h.1.le, h.1.seek, fun hh => absurd rfl hh⟩, rfl, fun _ => rfl⟩

theorem ats_readChar {w : Bytes} {c : Byte} {t : Bytes} {i : IStr} (h : AtS (w ++ c :: t) i) (hw : ∀ c ∈ w, isSpace c = true)
    (hc : isSpace c = false) : ∃ i', i.readChar = (some c, i') ∧ OkS t i' ∧ OkS (c :: t) i'.unget := by
  have h' : AtS ((w ++ [c]) ++ t) i := by simpa using h
  have hadv := oks_adv h' (by simp)
  have hl := ats_len h
  simp only [List.length_append, List.length_cons] at hl
  have hg : i.good = true := by
    cases w with
    | nil => exact ats_good h
    | cons x w => exact ats_good (c := x) h
  have hr := h.rest
  unfold IStr.rest at hr
  have hs : spaces (i.data.drop i.pos) = w.length := by
    rw [hr, spaces_append hw]
    simp [spaces, hc]
  have hget : i.data.getD (i.pos + w.length) 0 = c := by
    have := congrArg (fun l => l[w.length]?) hr
    simp only [List.getElem?_drop] at this
    rw [List.getD_eq_getElem?_getD, this]
    simp
  simp only [List.length_append, List.length_singleton] at hadv
  refine ⟨{ i with pos := i.pos + (w.length + 1) }, ?_, hadv, ?_⟩
  · unfold IStr.readChar
    rw [if_neg (by simp [hg])]
    simp only [hs, hget]
    rw [if_pos (by omega)]
    rfl
  · have hf := hadv.2
    obtain ⟨h1, h2⟩ := h.ok (by simp)
    unfold IStr.unget
    simp only at hf ⊢
    rw [if_neg (by simp [hf]), if_neg (by omega)]
    refine ⟨⟨?_, by simp only; omega, h.seek, fun _ => ⟨rfl, hf⟩⟩, hf⟩
    unfold IStr.rest
    simp only [show i.pos + (w.length + 1) - 1 = i.pos + w.length by omega]
    rw [← List.drop_drop, hr]
    simp

theorem ats_ignore {t post : Bytes} {i : IStr} (h : AtS (t ++ post) i) (ht : t ≠ []) : OkS post (i.ignore t.length) := by
  have hl := ats_len h
  simp only [List.length_append] at hl
  obtain ⟨h1, h2⟩ := h.ok (by simp [ht])
  unfold IStr.ignore
  rw [if_neg (by simp [IStr.good, h1, h2]), if_pos (by omega)]
  exact oks_adv h ht

/-! ### Numbers that are skipped or copied -/

/-- `next` was read in front of `text`. -/
def PeekedS (text : Bytes) (next : Int) (i : IStr) : Prop :=
  (text = [] ∧ next = EOFv ∧ AtS [] i) ∨ ∃ c cs, text = c :: cs ∧ (next = sext c ∨ next = (c.toNat : Int)) ∧ OkS cs i ∧ OkS (c :: cs) i.unget

theorem peekedS_of_get {text : Bytes} {i : IStr} (h : AtS text i) : ∃ next i', i.get = (next, i') ∧ PeekedS text next i' ∧ i'.data = i.data := by
  cases text with
  | nil =>
    obtain ⟨i', h1, h2, h3⟩ := ats_get_nil h
    exact ⟨_, _, h1, .inl ⟨rfl, rfl, h2⟩, h3⟩
  | cons c cs =>
    obtain ⟨i', h1, h2, h3, h4⟩ := ats_get h
    exact ⟨_, _, h1, .inr ⟨c, cs, rfl, .inr rfl, h2, by rw [h3]; exact ⟨h, (h.ok (by simp)).2⟩⟩, h4⟩

theorem toChar_nat (c : Byte) : toChar (c.toNat : Int) = c := by
  revert c; apply forall_byte; decide +kernel

theorem peekedS_char {text : Bytes} {next : Int} {i : IStr} (h : PeekedS text next i) : PeekedS text (sext (toChar next)) i := by
  rcases h with ⟨h1, rfl, h3⟩ | ⟨c, cs, h1, h2, h3, h4⟩
  · exact .inl ⟨h1, by decide, h3⟩
  · refine .inr ⟨c, cs, h1, .inl ?_, h3, h4⟩
    rcases h2 with rfl | rfl
    · rw [toChar_sext]
    · rw [toChar_nat]

theorem peekedS_len {text : Bytes} {next : Int} {i : IStr} (h : PeekedS text next i) : text.length ≤ i.data.length + 1 := by
  rcases h with ⟨rfl, -, -⟩ | ⟨c, cs, rfl, -, h, -⟩
  · simp
  · have := ats_len h.1; simp; omega

theorem ascii_eq (b : Byte) (hb : b < 0x80) (c : Byte) : (sext c = (b.toNat : Int) ↔ c = b) ∧ ((c.toNat : Int) = (b.toNat : Int) ↔ c = b) := by
  constructor
  · constructor
    · intro h
      have h2 := congrArg toChar h
      rwa [toChar_sext, toChar_nat] at h2
    · rintro rfl
      unfold sext
      rw [if_pos (by simpa [UInt8.lt_iff_toNat_lt] using hb)]
  · constructor
    · intro h
      exact UInt8.toNat_inj.mp (by exact_mod_cast h)
    · rintro rfl; rfl

theorem peekedS_head {text : Bytes} {next : Int} {i : IStr} (h : PeekedS text next i) (b : Byte) (hb : b < 0x80) :
    next = (b.toNat : Int) ↔ ∃ cs, text = b :: cs := by
  rcases h with ⟨rfl, rfl, -⟩ | ⟨c, cs, rfl, h2, -, -⟩
  · simp only [EOFv]
    constructor
    · intro h; omega
    · rintro ⟨cs, h⟩; simp at h
  · rcases h2 with rfl | rfl
    · rw [(ascii_eq b hb c).1]
      simp
    · rw [(ascii_eq b hb c).2]
      simp

theorem peekedS_eof {text : Bytes} {next : Int} {i : IStr} (h : PeekedS text next i) (hff : ∀ cs, text ≠ 0xFF :: cs) :
    next = EOFv ↔ text = [] := by
  rcases h with ⟨rfl, rfl, -⟩ | ⟨c, cs, rfl, h2, -, -⟩
  · simp
  · simp only [reduceCtorEq, iff_false]
    rintro hE
    rcases h2 with rfl | rfl
    · refine hff cs ?_
      rw [sext_inj (hE.trans (show EOFv = sext 0xFF by decide))]
    · unfold EOFv at hE; omega

theorem peekedS_cons {c : Byte} {t : Bytes} {next : Int} {i : IStr} (h : PeekedS (c :: t) next i) : toChar next = c ∧ OkS t i := by
  rcases h with ⟨h, -, -⟩ | ⟨c', cs, hc, h2, h, -⟩
  · simp at h
  · obtain ⟨rfl, rfl⟩ := List.cons.inj hc
    refine ⟨?_, h⟩
    rcases h2 with rfl | rfl
    · exact toChar_sext _
    · exact toChar_nat _

theorem digitLoopS_at (ds : Bytes) : ∀ (fuel : Nat) (post : Bytes) (next : Int) (i : IStr) (buf : Bytes),
    (∀ c ∈ ds, isDigit c = true) → (∀ c ps, post = c :: ps → isDigit c = false) → PeekedS (ds ++ post) next i → sext (toChar next) = next → ds.length < fuel →
    ∃ next' i', LexerS.digitLoop fuel i next buf = .ok (next', buf ++ ds, i') ∧ PeekedS post next' i' ∧ i'.data = i.data := by
  induction ds with
  | nil =>
    intro fuel post next i buf _ hp h hn hf
    obtain ⟨f, rfl⟩ : ∃ f, fuel = f + 1 := ⟨fuel - 1, by omega⟩
    refine ⟨next, i, ?_, h, rfl⟩
    unfold LexerS.digitLoop
    rw [if_neg]
    · simp
    · cases post with
      | nil =>
        rcases h with ⟨-, rfl, -⟩ | ⟨c, cs, hc, -, -, -⟩
        · decide
        · simp at hc
      | cons c cs =>
        rw [← hn, isDigitI_sext, (peekedS_cons h).1]
        simp [hp c cs rfl]
  | cons d ds ih =>
    intro fuel post next i buf hd hp h hn hf
    obtain ⟨f, rfl⟩ : ∃ f, fuel = f + 1 := ⟨fuel - 1, by omega⟩
    obtain ⟨hc, hat⟩ := peekedS_cons h
    obtain ⟨n, i2, hg, hpk, hdt⟩ := peekedS_of_get hat.1
    obtain ⟨n', i3, e3, p3, d3⟩ := ih f post (sext (toChar n)) i2 (buf ++ [d]) (fun c hc => hd c (by simp [hc])) hp (peekedS_char hpk)
      (by rw [toChar_sext]) (by simp at hf; omega)
    refine ⟨n', i3, ?_, p3, d3.trans hdt⟩
    rw [LexerS.digitLoop, if_pos (by rw [← hn, isDigitI_sext, hc]; exact hd d (by simp)), hg]
    simp only [hc]
    rw [e3]
    simp

theorem readDigitsS_at {ds post : Bytes} {next : Int} {i : IStr} (buf : Bytes) (hd : Digits ds)
    (hp : ∀ c ps, post = c :: ps → isDigit c = false) (h : PeekedS (ds ++ post) next i) :
    ∃ next' i', LexerS.readDigits i next buf = .ok (next', buf ++ ds, i') ∧ PeekedS post next' i' ∧ i'.data = i.data := by
  obtain ⟨n, hn⟩ := hd
  obtain ⟨h1, h2, -⟩ := dec_iff.mp hn
  have hl := peekedS_len h
  simp only [List.length_append] at hl
  obtain ⟨d, t, rfl, hdig⟩ := digits_head ⟨n, hn⟩
  unfold LexerS.readDigits
  rw [if_neg]
  · exact digitLoopS_at _ _ post _ i buf h2 hp (peekedS_char h) (by rw [toChar_sext]) (by omega)
  · rw [isDigitI_sext, (peekedS_cons h).1]; simp [hdig]

/-- `readNumber` consumes exactly a number. -/
theorem readNumberS_at {i : IStr} {a f e post : Bytes} {v : Int} (ha : IntLit a v) (hz : ¬ litLeadingZero a) (hf : Frac f) (he : Expo e)
    (hp : valueEnds post) (h : AtS (a ++ (f ++ e) ++ post) i) :
    ∃ i', LexerS.readNumber i = .ok (a ++ (f ++ e), i') ∧ AtS post i' ∧ (post ≠ [] → OkS post i') := by
  obtain ⟨sg, ip, hsg, hip, rfl, hz0⟩ := lit_parts ha hz
  have hpd := numberEnds_digit (valueEnds_number hp)
  have hep : ∀ c ps, e ++ post = c :: ps → isDigit c = false ∧ c ≠ 0x2E ∧ c ≠ 0xFF := by
    intro c ps hc
    cases e with
    | nil =>
      refine ⟨hpd c ps hc, ?_⟩
      simp only [List.nil_append] at hc
      subst hc
      exact ⟨hp.1.2.1, hp.2⟩
    | cons d e =>
      have := expo_ends he d e rfl
      rw [← (List.cons.inj hc).1]
      refine ⟨this.1, ?_⟩
      rcases this.2 with h | h <;> (subst h; decide)
  have hfep : ∀ c ps, f ++ (e ++ post) = c :: ps → isDigit c = false ∧ c ≠ 0xFF := by
    intro c ps hc
    cases f with
    | nil => exact ⟨(hep c ps hc).1, (hep c ps hc).2.2⟩
    | cons d f =>
      rw [← (List.cons.inj hc).1]
      have := frac_ends hf d f rfl
      exact ⟨this.1, by rw [this.2]; decide⟩
  obtain ⟨d, ipt, hipe, hdig⟩ := digits_head hip
  have hdn := digit_ne hdig
  rw [show sg ++ ip ++ (f ++ e) ++ post = sg ++ (ip ++ (f ++ (e ++ post))) by simp] at h
  -- sign
  have hsign : ∃ next i1, (do
      let (next, i) := i.get
      (if next = 0x2D ∨ next = 0x2B then
        let (n, i) := i.get
        if n = EOFv then throwStd else .ok (n, [toChar next], i)
      else .ok (next, [], i) : Res (Int × Bytes × IStr))) = .ok (next, sg, i1) ∧ PeekedS (ip ++ (f ++ (e ++ post))) next i1 := by
    rcases hsg with rfl | rfl
    · obtain ⟨n, i1, hg, hpk, -⟩ := peekedS_of_get h
      refine ⟨n, i1, ?_, hpk⟩
      rw [hg]
      simp only
      rw [if_neg]
      have h1 := peekedS_head hpk 0x2D (by decide)
      have h2 := peekedS_head hpk 0x2B (by decide)
      rintro (h' | h')
      · obtain ⟨cs, hcs⟩ := h1.mp (h'.trans (by decide))
        subst hipe
        exact hdn.1 (List.cons.inj hcs).1
      · obtain ⟨cs, hcs⟩ := h2.mp (h'.trans (by decide))
        subst hipe
        exact hdn.2.1 (List.cons.inj hcs).1
    · obtain ⟨i1, hg, h1, -, -⟩ := ats_get h
      obtain ⟨n, i2, hg2, hpk, -⟩ := peekedS_of_get h1.1
      refine ⟨n, i2, ?_, hpk⟩
      rw [hg]
      simp only
      rw [if_pos (by decide), hg2]
      simp only
      rw [if_neg]
      · rfl
      · intro hn
        subst hipe
        rcases (peekedS_eof hpk (by intro cs hcs; exact hdn.2.2.2.2.2.1 (List.cons.inj hcs).1)).mp hn
  obtain ⟨n1, i1, e1, p1⟩ := hsign
  -- integer part
  have hint : ∃ next i2, (if n1 = 0x30 then
      let (n, i) := i1.get
      .ok (n, sg ++ [toChar n1], i)
    else LexerS.readDigits i1 n1 sg : Res (Int × Bytes × IStr)) = .ok (next, sg ++ ip, i2) ∧ PeekedS (f ++ (e ++ post)) next i2 := by
    by_cases h0 : n1 = 0x30
    · rw [if_pos h0]
      obtain ⟨cs, hcs⟩ := (peekedS_head p1 0x30 (by decide)).mp (h0.trans (by decide))
      subst hipe
      have hd0 := (List.cons.inj hcs).1
      subst hd0
      have := hz0 _ rfl
      subst this
      obtain ⟨-, hat⟩ := peekedS_cons p1
      obtain ⟨n, i2, hg, hpk, -⟩ := peekedS_of_get hat.1
      refine ⟨n, i2, ?_, hpk⟩
      rw [hg, h0]
      rfl
    · rw [if_neg h0]
      obtain ⟨n, i2, e2, p2, -⟩ := readDigitsS_at sg hip (fun c ps hc => (hfep c ps hc).1) p1
      exact ⟨n, i2, e2, p2⟩
  obtain ⟨n2, i2, e2, p2⟩ := hint
  -- fraction
  have hfrac : ∃ next i3, (if n2 = 0x2E then
      let (n, i) := i2.get
      if n = EOFv then throwStd else LexerS.readDigits i n (sg ++ ip ++ [toChar n2])
    else .ok (n2, sg ++ ip, i2) : Res (Int × Bytes × IStr)) = .ok (next, sg ++ ip ++ f, i3) ∧ PeekedS (e ++ post) next i3 := by
    rcases hf with rfl | ⟨ds, hds, rfl⟩
    · rw [if_neg]
      · exact ⟨n2, i2, by simp, p2⟩
      · intro hn
        obtain ⟨cs, hcs⟩ := (peekedS_head p2 0x2E (by decide)).mp (hn.trans (by decide))
        exact (hep _ _ hcs).2.1 rfl
    · obtain ⟨hc, hat⟩ := peekedS_cons p2
      rw [if_pos (((peekedS_head p2 0x2E (by decide)).mpr ⟨_, rfl⟩).trans (by decide)), hc]
      obtain ⟨n, i3, hg, hpk, -⟩ := peekedS_of_get hat.1
      rw [hg]
      simp only
      obtain ⟨d', t', hd', hdig'⟩ := digits_head hds
      rw [if_neg]
      · obtain ⟨n', i4, e3, p3, -⟩ := readDigitsS_at (sg ++ ip ++ [0x2E]) hds (fun c ps hc => (hep c ps hc).1) hpk
        exact ⟨n', i4, by rw [e3]; simp, p3⟩
      · intro hn
        subst hd'
        rcases (peekedS_eof hpk (by intro cs hcs; exact (digit_ne hdig').2.2.2.2.2.1 (List.cons.inj hcs).1)).mp hn
  obtain ⟨n3, i3, e3, p3⟩ := hfrac
  -- exponent
  have hexp : ∃ next i4, (if n3 = 0x65 ∨ n3 = 0x45 then
      let (n, i) := i3.get
      if n = EOFv then throwStd else
      if n = 0x2D ∨ n = 0x2B then
        let (m, i) := i.get
        if m = EOFv then throwStd else LexerS.readDigits i m (sg ++ ip ++ f ++ [toChar n3] ++ [toChar n])
      else LexerS.readDigits i n (sg ++ ip ++ f ++ [toChar n3])
    else .ok (n3, sg ++ ip ++ f, i3) : Res (Int × Bytes × IStr)) = .ok (next, sg ++ ip ++ f ++ e, i4) ∧ PeekedS post next i4 := by
    rcases he with rfl | ⟨ec, es, ds, hec, hes, hds, rfl⟩
    · rw [if_neg]
      · exact ⟨n3, i3, by simp, p3⟩
      · have hne := valueEnds_number hp
        rintro (hn | hn)
        · obtain ⟨cs, hcs⟩ := (peekedS_head p3 0x65 (by decide)).mp (hn.trans (by decide))
          simp only [List.nil_append] at hcs
          subst hcs
          exact hne.2.2.1 rfl
        · obtain ⟨cs, hcs⟩ := (peekedS_head p3 0x45 (by decide)).mp (hn.trans (by decide))
          simp only [List.nil_append] at hcs
          subst hcs
          exact hne.2.2.2 rfl
    · obtain ⟨hc, hat⟩ := peekedS_cons p3
      rw [if_pos (by
        rcases hec with rfl | rfl
        · exact .inl (((peekedS_head p3 0x65 (by decide)).mpr ⟨_, rfl⟩).trans (by decide))
        · exact .inr (((peekedS_head p3 0x45 (by decide)).mpr ⟨_, rfl⟩).trans (by decide))), hc]
      obtain ⟨n, i4, hg, hpk, -⟩ := peekedS_of_get hat.1
      rw [hg]
      simp only
      obtain ⟨d', t', hd', hdig'⟩ := digits_head hds
      have hdn' := digit_ne hdig'
      rcases hes with rfl | rfl | rfl
      · rw [if_neg, if_neg]
        · obtain ⟨n', i5, e4, p4, -⟩ := readDigitsS_at (sg ++ ip ++ f ++ [ec]) hds hpd hpk
          exact ⟨n', i5, by rw [e4]; simp, p4⟩
        · rintro (hn | hn)
          · obtain ⟨cs, hcs⟩ := (peekedS_head hpk 0x2D (by decide)).mp (hn.trans (by decide))
            subst hd'
            exact hdn'.1 (List.cons.inj hcs).1
          · obtain ⟨cs, hcs⟩ := (peekedS_head hpk 0x2B (by decide)).mp (hn.trans (by decide))
            subst hd'
            exact hdn'.2.1 (List.cons.inj hcs).1
        · intro hn
          subst hd'
          rcases (peekedS_eof hpk (by intro cs hcs; exact hdn'.2.2.2.2.2.1 (List.cons.inj hcs).1)).mp hn
      · obtain ⟨hc2, hat2⟩ := peekedS_cons hpk
        rw [if_neg, if_pos (.inr (((peekedS_head hpk 0x2B (by decide)).mpr ⟨_, rfl⟩).trans (by decide))), hc2]
        · obtain ⟨m, i5, hg2, hpk2, -⟩ := peekedS_of_get hat2.1
          rw [hg2]
          simp only
          rw [if_neg]
          · obtain ⟨n', i6, e4, p4, -⟩ := readDigitsS_at (sg ++ ip ++ f ++ [ec] ++ [0x2B]) hds hpd hpk2
            exact ⟨n', i6, by rw [e4]; simp, p4⟩
          · intro hn
            subst hd'
            rcases (peekedS_eof hpk2 (by intro cs hcs; exact hdn'.2.2.2.2.2.1 (List.cons.inj hcs).1)).mp hn
        · intro hn
          have := (peekedS_eof hpk (by intro cs hcs; simp at hcs)).mp hn
          simp at this
      · obtain ⟨hc2, hat2⟩ := peekedS_cons hpk
        rw [if_neg, if_pos (.inl (((peekedS_head hpk 0x2D (by decide)).mpr ⟨_, rfl⟩).trans (by decide))), hc2]
        · obtain ⟨m, i5, hg2, hpk2, -⟩ := peekedS_of_get hat2.1
          rw [hg2]
          simp only
          rw [if_neg]
          · obtain ⟨n', i6, e4, p4, -⟩ := readDigitsS_at (sg ++ ip ++ f ++ [ec] ++ [0x2D]) hds hpd hpk2
            exact ⟨n', i6, by rw [e4]; simp, p4⟩
          · intro hn
            subst hd'
            rcases (peekedS_eof hpk2 (by intro cs hcs; exact hdn'.2.2.2.2.2.1 (List.cons.inj hcs).1)).mp hn
        · intro hn
          have := (peekedS_eof hpk (by intro cs hcs; simp at hcs)).mp hn
          simp at this
  obtain ⟨n4, i4, e4, p4⟩ := hexp
  have hfin : LexerS.readNumber i = if n4 ≠ EOFv then .ok (sg ++ ip ++ f ++ e, i4.unget) else .ok (sg ++ ip ++ f ++ e, i4) := by
    unfold LexerS.readNumber
    rcases hget : i.get with ⟨g1, g2⟩
    rw [hget] at e1
    simp only at e1 ⊢
    rw [e1]
    simp only [Res.ok_bind]
    rw [e2]
    simp only [Res.ok_bind]
    rw [e3]
    simp only [Res.ok_bind]
    rw [e4]
    simp only [Res.ok_bind]
    rfl
  rw [hfin]
  have hff : ∀ cs, post ≠ 0xFF :: cs := by
    rintro cs rfl
    exact hp.2 rfl
  by_cases hE : n4 = EOFv
  · have := (peekedS_eof p4 hff).mp hE
    subst this
    rw [if_neg (by simpa using hE)]
    refine ⟨i4, by simp, ?_, fun h => absurd rfl h⟩
    rcases p4 with ⟨-, -, h⟩ | ⟨c, cs, h, -⟩
    · exact h
    · simp at h
  · rw [if_pos hE]
    refine ⟨_, by simp; rfl, ?_⟩
    rcases p4 with ⟨-, h, -⟩ | ⟨c, cs, rfl, -, -, h⟩
    · exact absurd h hE
    · exact ⟨h.1, fun _ => h⟩

end Thors
