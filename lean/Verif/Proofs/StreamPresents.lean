import Verif.Proofs.StreamScan
import Verif.Proofs.StreamFloat
/-
The JSON parser over a stream presents the tree of the text it stands in front of.
-/
namespace Thors
open Spec StrIn

/-! ### Strings -/

theorem getline_found {i : IStr} {seg t : Bytes} (h : AtS (seg ++ 0x22 :: t) i) (hq : ∀ c ∈ seg, c ≠ 0x22) :
    i.getline 0x22 = (some seg, true, { i with pos := i.pos + (seg.length + 1) }) := by
  have hl := ats_len h
  obtain ⟨h1, h2⟩ := h.ok (by simp)
  simp only [List.length_append, List.length_cons] at hl
  have hr := h.rest
  have hu : StrIn.upTo 0x22 (seg ++ 0x22 :: t) = seg.length := by
    clear hr hl h
    induction seg with
    | nil => simp [StrIn.upTo]
    | cons c cs ih =>
      have hc : c ≠ 0x22 := hq c (by simp)
      simp only [List.cons_append, StrIn.upTo, if_neg hc, List.length_cons]
      rw [ih (fun x hx => hq x (by simp [hx]))]
  unfold IStr.rest at hr
  unfold IStr.getline
  rw [if_neg (by simp [IStr.good, h1, h2]), hr, hu]
  simp only
  rw [if_pos (by omega)]
  simp

theorem readMoreS_found (f : Nat) : ∀ (t : Bytes) (i : IStr) (tmp value body post : Bytes),
    t.length < f → AtS t i → splitQuote false t = some (body, post) →
    LexerS.readMore f i tmp value = .ok (value ++ [0x22] ++ body, { i with pos := i.pos + (body.length + 1) }) := by
  induction f with
  | zero => intro t s tmp value body post h; omega
  | succ f ih =>
    intro t i tmp value body post hf hr hsp
    by_cases hu : StrIn.upTo 0x22 t < t.length
    · have hsplit := upTo_split 0x22 t hu
      have hseg := upTo_seg 0x22 t
      generalize t.take (StrIn.upTo 0x22 t) = seg at hsplit hseg
      generalize t.drop (StrIn.upTo 0x22 t + 1) = t' at hsplit
      subst hsplit
      rw [splitQuote_seg hseg] at hsp
      simp only [LexerS.readMore, getline_found hr hseg, Option.getD_some]
      have hce := checkEscape_eq seg
      by_cases he : escState false seg = true
      · rw [if_pos he] at hsp
        simp only [Option.map_eq_some_iff] at hsp
        obtain ⟨⟨b', p'⟩, h1, h2⟩ := hsp
        simp at h2
        obtain ⟨rfl, rfl⟩ := h2
        have hne : seg ≠ [] := by
          intro h; subst h; simp [escState] at he
        rw [if_pos ⟨List.length_pos_iff.mpr hne, by rw [hce, he]⟩]
        have hr' : AtS t' { i with pos := i.pos + (seg.length + 1) } := by
          have := (oks_adv (t := seg ++ [0x22]) (post := t') (by simpa using hr) (by simp)).1
          simpa using this
        rw [ih t' _ _ _ b' p' (by simp at hf; omega) hr' h1]
        simp
        omega
      · rw [if_neg he] at hsp
        simp at hsp
        obtain ⟨rfl, rfl⟩ := hsp
        have he' : checkEscape seg = false := by rw [hce]; simpa using he
        simp [he']
    · have hu' : StrIn.upTo 0x22 t = t.length := by have := upTo_le 0x22 t; omega
      have hseg := upTo_seg 0x22 t
      rw [hu', List.take_length] at hseg
      rw [splitQuote_none hseg] at hsp
      simp at hsp

theorem getStringIntoS_found (l : LexerS) (t body post : Bytes) (hr : AtS (0x22 :: t) l.inp) (hsp : splitQuote false t = some (body, post)) :
    l.getStringInto = (do
      let v ← (if l.convertBackSlash then unescapeInPlace body else .ok body : Res Bytes)
      return (v, { l with inp := { l.inp with pos := l.inp.pos + (body.length + 2) } })) := by
  obtain ⟨i1, hget, hr1, hun, hd1⟩ := ats_get hr
  have hi1 : i1 = { l.inp with pos := l.inp.pos + 1 } := by
    obtain ⟨hlt, hc⟩ := ats_head hr
    unfold IStr.get at hget
    rw [if_neg (by simp [ats_good hr]), if_pos hlt] at hget
    exact (Prod.mk.inj hget).2.symm
  unfold LexerS.getStringInto
  rw [hget]
  simp only [toChar_nat, ne_eq, not_true_eq_false, if_false]
  by_cases hu : StrIn.upTo 0x22 t < t.length
  · have hsplit := upTo_split 0x22 t hu
    have hseg := upTo_seg 0x22 t
    generalize t.take (StrIn.upTo 0x22 t) = seg at hsplit hseg
    generalize t.drop (StrIn.upTo 0x22 t + 1) = t' at hsplit
    subst hsplit
    rw [splitQuote_seg hseg] at hsp
    simp only [getline_found hr1.1 hseg, Option.getD_some]
    have hce := checkEscape_eq seg
    by_cases he : escState false seg = true
    · rw [if_pos he] at hsp
      simp only [Option.map_eq_some_iff] at hsp
      obtain ⟨⟨b', p'⟩, h1, h2⟩ := hsp
      simp at h2
      obtain ⟨rfl, rfl⟩ := h2
      have hne : seg ≠ [] := by
        intro h; subst h; simp [escState] at he
      rw [if_pos ⟨List.length_pos_iff.mpr hne, by rw [hce, he]⟩]
      have hr' : AtS t' { i1 with pos := i1.pos + (seg.length + 1) } := by
        have := (oks_adv (t := seg ++ [0x22]) (post := t') (by simpa using hr1.1) (by simp)).1
        simpa using this
      have hdl : t'.length < i1.data.length + 1 := by
        have := ats_len hr'; simp only at this; omega
      rw [readMoreS_found _ t' _ _ _ b' p' hdl hr' h1]
      simp only [Res.ok_bind, List.append_assoc, List.singleton_append, hi1]
      have : l.inp.pos + 1 + (seg.length + 1) + (b'.length + 1) = l.inp.pos + ((seg ++ 0x22 :: b').length + 2) := by
        simp; omega
      rw [this]
    · rw [if_neg he] at hsp
      simp at hsp
      obtain ⟨rfl, rfl⟩ := hsp
      have he' : checkEscape seg = false := by rw [hce]; simpa using he
      rw [if_neg (by simp [he'])]
      simp only [Res.ok_bind, hi1]
      have : l.inp.pos + 1 + (seg.length + 1) = l.inp.pos + (seg.length + 2) := by omega
      rw [this]
  · have hu' : StrIn.upTo 0x22 t = t.length := by have := upTo_le 0x22 t; omega
    have hseg := upTo_seg 0x22 t
    rw [hu', List.take_length] at hseg
    rw [splitQuote_none hseg] at hsp
    simp at hsp

theorem getStringS_bad {l : LexerS} {c : Byte} {t : Bytes} (h : AtS (c :: t) l.inp) (hc : c ≠ 0x22) : l.getStringInto = throwStd := by
  obtain ⟨s, h1, -, -, -⟩ := ats_get h
  unfold LexerS.getStringInto
  rw [h1]
  simp only [toChar_nat]
  rw [if_pos hc]

theorem getStringS_at {l : LexerS} {s : JStr} {post : Bytes} (hb : Body codePair s.raw s.dec) (h : AtS ([0x22] ++ s.raw ++ [0x22] ++ post) l.inp) :
    ∃ l', l.getStringInto = .ok (s.val l.convertBackSlash, l') ∧ OkS post l'.inp ∧ l'.convertBackSlash = l.convertBackSlash := by
  have hr : AtS (0x22 :: (s.raw ++ 0x22 :: post)) l.inp := by simpa using h
  rw [getStringIntoS_found l _ _ _ hr (splitQuote_body hb post), unescapeInPlace_eq, unesc_body hb]
  have hadv := oks_adv h (by simp)
  refine ⟨{ l with inp := { l.inp with pos := l.inp.pos + (s.raw.length + 2) } }, ?_, ?_, rfl⟩
  · unfold JStr.val
    cases l.convertBackSlash <;> rfl
  · simp only [List.length_append, List.length_singleton] at hadv
    have e : 1 + s.raw.length + 1 = s.raw.length + 2 := by omega
    rw [e] at hadv
    exact hadv

/-- A text every quote of which comes after a backslash, and which has no control characters; `last` comes before it. -/
def QuoteOk : Byte → Bytes → Prop
  | _, [] => True
  | last, c :: cs => (c = 0x22 → last = 0x5C) ∧ 0x20 ≤ c.toNat ∧ QuoteOk c cs

theorem quoteOk_append {a b : Bytes} : ∀ {last : Byte}, QuoteOk last a → (∀ l, QuoteOk l b) → QuoteOk last (a ++ b) := by
  induction a with
  | nil => intro last _ h; exact h last
  | cons c a ih => intro last h hb; exact ⟨h.1, h.2.1, ih h.2.2 hb⟩

theorem hex_quoteOk {c : Byte} {v : Nat} (h : Hex c v) : c ≠ 0x22 ∧ 0x20 ≤ c.toNat := by
  have := hex_scan h true
  exact ⟨this.2.1, (this.2.2 rfl).1⟩

theorem hex4_quoteOk {h : Bytes} {v : Nat} (hv : Hex4 h v) (last : Byte) : QuoteOk last h := by
  cases hv with
  | mk ha hb hc hd =>
    exact ⟨fun h => absurd h (hex_quoteOk ha).1, (hex_quoteOk ha).2, fun h => absurd h (hex_quoteOk hb).1, (hex_quoteOk hb).2,
      fun h => absurd h (hex_quoteOk hc).1, (hex_quoteOk hc).2, fun h => absurd h (hex_quoteOk hd).1, (hex_quoteOk hd).2, trivial⟩

theorem uni_quoteOk {h : Bytes} {v : Nat} (hv : Hex4 h v) (last : Byte) : QuoteOk last (0x5C :: 0x75 :: h) :=
  ⟨fun h => absurd h (by decide), by decide, fun h => absurd h (by decide), by decide, hex4_quoteOk hv _⟩

theorem body_quoteOk {pr : Nat → Nat → Bytes} {t o : Bytes} (h : Body pr t o) : ∀ last, QuoteOk last t := by
  induction h with
  | nil => intro _; trivial
  | basic h hs ih =>
    intro last
    refine quoteOk_append ?_ ih
    cases h with
    | raw c h1 h2 h3 => exact ⟨fun h => absurd h h2, h1, trivial⟩
    | short h => exact ⟨fun h => absurd h (by decide), by decide, fun _ => rfl, by cases h <;> decide, trivial⟩
    | uni hv _ => exact uni_quoteOk hv last
  | pair h hs ih =>
    intro last
    cases h with
    | mk ha hb _ _ =>
      exact quoteOk_append (quoteOk_append (uni_quoteOk ha last) (uni_quoteOk hb)) ih

theorem scanQuoteS_run {ctl : Bool} (t : Bytes) : ∀ (fuel : Nat) (i : IStr) (last : Byte) (acc post : Bytes), QuoteOk last t → lastOf last t ≠ 0x5C →
    AtS (t ++ 0x22 :: post) i → t.length < fuel → ∃ i', LexerS.scanQuote ctl fuel i last acc = .ok (acc ++ t, i') ∧ OkS post i' := by
  induction t with
  | nil =>
    intro fuel i last acc post _ hl h hf
    obtain ⟨f, rfl⟩ : ∃ f, fuel = f + 1 := ⟨fuel - 1, by simp at hf; omega⟩
    obtain ⟨i1, e1, h1, -, -⟩ := ats_get h
    refine ⟨i1, ?_, h1⟩
    unfold LexerS.scanQuote
    rw [e1]
    have hl' : last ≠ 0x5C := by simpa [lastOf] using hl
    simp [hl', EOFv]
  | cons c t ih =>
    intro fuel i last acc post hq hl h hf
    obtain ⟨f, rfl⟩ : ∃ f, fuel = f + 1 := ⟨fuel - 1, by simp at hf; omega⟩
    obtain ⟨i1, e1, h1, -, -⟩ := ats_get h
    have hl' : lastOf c t ≠ 0x5C := by
      have := lastOf_append last [c] t
      simp only [List.singleton_append] at this
      rw [this] at hl
      simpa [lastOf] using hl
    obtain ⟨i2, e2, h2⟩ := ih f i1 c (acc ++ [c]) post hq.2.2 hl' h1.1 (by simp at hf; omega)
    refine ⟨i2, ?_, h2⟩
    unfold LexerS.scanQuote
    rw [e1]
    simp only [toChar_nat]
    rw [if_pos, if_neg, e2]
    · simp
    · have := hq.2.1
      rintro ⟨-, hh⟩
      omega
    · refine ⟨by simp only [EOFv]; omega, ?_⟩
      rintro ⟨h3, h4⟩
      have : c = 0x22 := UInt8.toNat_inj.mp (by simpa using (by exact_mod_cast h3 : c.toNat = 34))
      exact h4 (hq.1 this)

theorem skipStringS_at {ctl : Bool} {i : IStr} {s : JStr} {post : Bytes} (hb : Body codePair s.raw s.dec)
    (h : AtS ([0x22] ++ s.raw ++ [0x22] ++ post) i) (hk : s.streamSkips = true) :
    ∃ i1 i2, i.get = (0x22, i1) ∧ LexerS.scanQuote ctl (i1.data.length + 1) i1 0x22 [] = .ok (s.raw, i2) ∧ OkS post i2 := by
  have h' : AtS (0x22 :: (s.raw ++ 0x22 :: post)) i := by simpa using h
  obtain ⟨i1, h1, h2, -, -⟩ := ats_get h'
  unfold JStr.streamSkips at hk
  simp only [ne_eq, decide_eq_true_eq] at hk
  have hl := ats_len h2.1
  simp only [List.length_append, List.length_cons] at hl
  obtain ⟨i2, h3, h4⟩ := scanQuoteS_run (ctl := ctl) s.raw (i1.data.length + 1) i1 0x22 [] post (body_quoteOk hb _) (by
    unfold lastOf
    cases he : s.raw.getLast? with
    | none => simp
    | some c => rw [he] at hk; simpa using hk) h2.1 (by omega)
  exact ⟨i1, i2, h1, by simpa using h3, h4⟩

theorem checkFixedS_at {l : LexerS} {check post : Bytes} (h : AtS (check ++ post) l.inp) (hc : check ≠ []) :
    ∃ l', l.checkFixed check = .ok l' ∧ OkS post l'.inp ∧ l'.convertBackSlash = l.convertBackSlash ∧ l'.lastBool = l.lastBool := by
  have hl := ats_len h
  simp at hl
  have hr := h.rest
  unfold IStr.rest at hr
  obtain ⟨h1, h2⟩ := h.ok (by simp [hc])
  have hadv := oks_adv h hc
  have hread : l.inp.read check.length = (check, true, { l.inp with pos := l.inp.pos + check.length }) := by
    unfold IStr.read
    rw [if_neg (by simp [IStr.good, h1, h2]), hr]
    simp
  unfold LexerS.checkFixed
  simp only [hread]
  rw [if_pos]
  · exact ⟨_, rfl, hadv, rfl, rfl⟩
  · simp; omega

/-! ### Integers -/

theorem checkZeroS_at {i : IStr} {c : Byte} {t : Bytes} (h : AtS (c :: t) i) (hz : c = 0x30 → ∀ d u, t = d :: u → isDigit d = false ∨ d = 0x30) :
    i.checkZero = .ok i := by
  unfold IStr.checkZero
  rw [ats_peek h]
  simp only
  by_cases hc : c = 0x30
  · subst hc
    rw [if_pos (by decide)]
    obtain ⟨i1, e1, h1, hu, -⟩ := ats_get h
    rw [e1]
    simp only
    cases t with
    | nil =>
      have hf := (h.ok (by simp))
      have hi1 : i1 = { i with pos := i.pos + 1 } := by
        obtain ⟨hlt, hc⟩ := ats_head h
        unfold IStr.get at e1
        rw [if_neg (by simp [ats_good h]), if_pos hlt] at e1
        exact (Prod.mk.inj e1).2.symm
      obtain ⟨i2, e2, h2, -, hi2⟩ := oks_peek_nil h1
      rw [e2, if_neg (by simp [EOFv])]
      rw [hi2 (by rw [hi1]; exact hf.1), hi1]
      unfold IStr.unget
      simp only [hf.2, Bool.false_eq_true, if_false]
      rw [if_neg (by omega)]
      cases i
      simp only at hf
      simp [hf.1, hf.2]
    | cons d u =>
      rw [ats_peek h1.1]
      simp only
      rw [if_neg, hu]
      rintro ⟨h3, h4⟩
      rcases hz rfl d u rfl with h | rfl
      · simp only [isDigit, decide_eq_false_iff_not, UInt8.le_iff_toNat_le] at h
        have e1 : (0x30 : Byte).toNat = 48 := rfl
        have e2 : (0x39 : Byte).toNat = 57 := rfl
        rw [e1, e2] at h
        omega
      · simp at h3
  · rw [if_neg]
    intro h3
    exact hc (UInt8.toNat_inj.mp (by simpa using (by exact_mod_cast h3 : c.toNat = 48)))

theorem tellg_ok {c : Byte} {t : Bytes} {i : IStr} (h : AtS (c :: t) i) : i.tellg = ((i.pos : Int), i) := by
  unfold IStr.tellg
  rw [if_neg (by simp [ats_good h]), if_neg (by simp [h.seek])]

theorem tellg_adv {i : IStr} (h1 : i.eof = false) (h2 : i.fail = false) (h3 : i.seekable = true) (p : Nat) :
    ({ i with pos := p } : IStr).tellg = ((p : Int), { i with pos := p }) := by
  unfold IStr.tellg
  rw [if_neg (by simp [IStr.good, h1, h2]), if_neg (by simp [h3])]

/-- Reading through `num_get`, in front of something. -/
theorem readUnsigned_at {i : IStr} {c : Byte} {t : Bytes} (bits : Nat) (h : AtS (c :: t) i) :
    i.readUnsigned bits = ((decide ((IStr.numGet bits (c :: t)).len ≠ 0), (IStr.numGet bits (c :: t)).value),
      { i with pos := i.pos + (IStr.numGet bits (c :: t)).len }) := by
  obtain ⟨h1, h2⟩ := h.ok (by simp)
  have hr := h.rest
  unfold IStr.rest at hr
  unfold IStr.readUnsigned
  rw [tellg_ok h]
  simp only [hr]
  rw [tellg_adv h1 h2 h.seek]
  generalize IStr.numGet bits (c :: t) = r
  simp only [Prod.mk.injEq, and_true]
  by_cases hz : r.len = 0
  · simp [hz]
  · simp [hz]; omega

theorem numGet_digits {bits : Nat} {ds post : Bytes} (hd : Digits ds) (hp : ∀ c ps, post = c :: ps → isDigit c = false) :
    IStr.numGet bits (ds ++ post) = ⟨ds.length, min (digitsVal ds) (2 ^ bits - 1)⟩ := by
  obtain ⟨n, hn⟩ := hd
  obtain ⟨h1, h2, h3⟩ := dec_iff.mp hn
  obtain ⟨d, t, rfl, hdig⟩ := digits_head ⟨n, hn⟩
  have hne := digit_ne hdig
  have hpre := digitPrefix_append h2 hp
  unfold IStr.numGet
  simp only [List.cons_append, List.head?_cons, Option.some.injEq, hne.1, hne.2.1, decide_false, Bool.or_self, Bool.false_eq_true, if_false]
  simp only [List.cons_append] at hpre
  rw [hpre]
  simp only [reduceCtorEq, if_false, Nat.zero_add, IStr.NumGet.mk.injEq, true_and]
  have : 0 < 2 ^ bits := Nat.two_pow_pos bits
  split <;> omega

theorem numGet_neg {bits : Nat} {ds post : Bytes} (hd : Digits ds) (hp : ∀ c ps, post = c :: ps → isDigit c = false) :
    IStr.numGet bits (0x2D :: (ds ++ post)) = ⟨ds.length + 1, if digitsVal ds ≥ 2 ^ bits then 2 ^ bits - 1 else (2 ^ bits - digitsVal ds) % 2 ^ bits⟩ := by
  obtain ⟨n, hn⟩ := hd
  obtain ⟨h1, h2, h3⟩ := dec_iff.mp hn
  have hpre := digitPrefix_append h2 hp
  unfold IStr.numGet
  simp only [List.head?_cons, decide_true, Bool.true_or, if_true, List.drop_succ_cons, List.drop_zero, hpre, h1, if_false, IStr.NumGet.mk.injEq]
  exact ⟨by omega, trivial⟩

theorem validateS {i : IStr} {post : Bytes} (h : OkS post i) (ok : Bool) :
    ∃ i', IStr.validateResult ok i = ((ok && decide (post.head? ≠ some 0x2E) && decide (post.head? ≠ some 0x65) && decide (post.head? ≠ some 0x45)), i') ∧
      AtS post i' ∧ (i.eof = false → OkS post i') := by
  unfold IStr.validateResult
  cases post with
  | nil =>
    obtain ⟨i', e, h1, -, h2⟩ := oks_peek_nil h
    rw [e]
    exact ⟨i', by simp [EOFv, show toChar (-1) = 0xFF by decide], h1, fun he => ⟨h1, by rw [h2 he]; exact h.2⟩⟩
  | cons c t =>
    rw [ats_peek h.1]
    refine ⟨i, ?_, h.1, fun _ => h⟩
    simp only [toChar_nat, List.head?_cons, Option.some.injEq, ne_eq, decide_not]
    rfl

/-- What `readInt` does with a literal. -/
theorem readIntS_lit {i : IStr} (k : IntKind) {t post : Bytes} {v : Int} (h : IntLit t v) (hp : ∀ c ps, post = c :: ps → isDigit c = false) (hr : AtS (t ++ post) i) :
    i.readInt k = ((true, streamInt k t v), { i with pos := i.pos + t.length }) := by
  have htp : ∀ b : Nat, 0 < 2 ^ b := Nat.two_pow_pos
  cases h with
  | pos h =>
    rename_i n
    obtain ⟨h1, h2, h3⟩ := dec_iff.mp h
    obtain ⟨d, u, rfl, hdig⟩ := digits_head ⟨n, h⟩
    have hne := digit_ne hdig
    have hg := numGet_digits (bits := k.bits) ⟨n, h⟩ hp
    have hr' : AtS (d :: (u ++ post)) i := hr
    have hrd := readUnsigned_at k.bits hr'
    rw [show d :: (u ++ post) = (d :: u) ++ post from rfl, hg, h3] at hrd
    unfold IStr.readInt streamInt
    simp only [List.head?_cons, Option.some.injEq, hne.1, decide_false, Bool.false_eq_true, if_false, Int.natAbs_natCast]
    cases k.signed with
    | true =>
      simp only [if_true]
      rw [ats_peek hr']
      have : ((d.toNat : Int) == 0x2D) = false := by
        simp only [beq_eq_false_iff_ne, ne_eq]
        intro hh
        exact hne.1 (UInt8.toNat_inj.mp (by simpa using (by exact_mod_cast hh : d.toNat = 45)))
      simp only [this, Bool.false_eq_true, if_false, hrd]
      simp [IStr.wrapSigned, asSigned]
    | false =>
      simp only [Bool.false_eq_true, if_false, hrd]
      refine Prod.ext (Prod.ext (by simp) ?_) rfl
      simp only
      have := htp k.bits
      split
      · rename_i hge
        rw [Nat.min_eq_right (by omega)]
        rw [Int.natCast_sub (by omega), Int.natCast_pow]
        rfl
      · rw [Nat.min_eq_left (by omega)]
  | neg h =>
    rename_i ds n
    obtain ⟨h1, h2, h3⟩ := dec_iff.mp h
    obtain ⟨d, u, rfl, hdig⟩ := digits_head ⟨n, h⟩
    have hr' : AtS (0x2D :: ((d :: u) ++ post)) i := hr
    unfold IStr.readInt streamInt
    simp only [List.head?_cons, decide_true, if_true, Int.natAbs_neg, Int.natAbs_natCast]
    cases k.signed with
    | true =>
      simp only [if_true]
      rw [ats_peek hr']
      simp only [show ((UInt8.toNat 0x2D : Int) == 0x2D) = true by decide, if_true]
      obtain ⟨i1, e1, hi1, -, -⟩ := ats_get hr'
      have hi1' : i1 = { i with pos := i.pos + 1 } := by
        obtain ⟨hlt, hc⟩ := ats_head hr'
        unfold IStr.get at e1
        rw [if_neg (by simp [ats_good hr']), if_pos hlt] at e1
        exact (Prod.mk.inj e1).2.symm
      rw [e1]
      have hrd := readUnsigned_at k.bits (c := d) (t := u ++ post) hi1.1
      have hg := numGet_digits (bits := k.bits) ⟨n, h⟩ hp
      rw [show d :: (u ++ post) = (d :: u) ++ post from rfl, hg, h3] at hrd
      simp only [hrd]
      rw [hi1']
      simp only [List.length_cons, IStr.wrapSigned, asSigned]
      refine Prod.ext (Prod.ext (by simp) rfl) ?_
      simp only [IStr.mk.injEq, true_and, and_true]
      omega
    | false =>
      simp only [Bool.false_eq_true, if_false]
      have hrd := readUnsigned_at k.bits hr'
      have hg := numGet_neg (bits := k.bits) ⟨n, h⟩ hp
      rw [hg, h3] at hrd
      simp only [hrd]
      refine Prod.ext (Prod.ext (by simp) ?_) (by simp)
      simp only
      have := htp k.bits
      have hcast : ((2 ^ k.bits : Nat) : Int) = (2 : Int) ^ k.bits := by rw [Int.natCast_pow]; rfl
      rw [← hcast]
      generalize 2 ^ k.bits = M at *
      split
      · omega
      · rename_i hlt
        by_cases hn0 : n = 0
        · subst hn0
          simp
        · rw [Nat.mod_eq_of_lt (by omega)]
          rw [show -(n : Int) = (M : Int) - n + (M : Int) * (-1) by rw [Int.mul_neg, Int.mul_one]; omega, Int.add_mul_emod_self_left]
          rw [Int.emod_eq_of_lt (by omega) (by omega)]
          omega

theorem noZero {t post : Bytes} {v : Int} (h : IntLit t v) (hz : ¬ litLeadingZero t) (hp : ∀ c ps, post = c :: ps → isDigit c = false) :
    ∃ c u, t = c :: u ∧ (c = 0x30 → ∀ d w, u ++ post = d :: w → isDigit d = false ∨ d = 0x30) := by
  cases t with
  | nil => exact absurd rfl (lit_ne_nil h)
  | cons c u =>
    refine ⟨c, u, rfl, ?_⟩
    rintro rfl d w e
    cases u with
    | nil => exact .inl (hp d w e)
    | cons x u => exact absurd (by simp [litLeadingZero, leadingZero]) hz

/-- Reading an integer literal from a stream. -/
theorem scanIntS_lit (l : LexerS) (k : IntKind) {t post : Bytes} {v : Int} (h : IntLit t v) (hz : ¬ litLeadingZero t) (hp : numberEnds post)
    (hr : AtS (t ++ post) l.inp) : ∃ i', l.scanInt k = .ok (streamInt k t v, { l with inp := i' }) ∧ OkS post i' := by
  have hpd := numberEnds_digit hp
  obtain ⟨c, u, rfl, hz'⟩ := noZero h hz hpd
  have hadv := oks_adv hr (by simp)
  have heof := (hr.ok (by simp)).1
  obtain ⟨i', e, -, h2⟩ := validateS hadv true
  refine ⟨i', ?_, h2 heof⟩
  have hzero := checkZeroS_at (c := c) (t := u ++ post) hr hz'
  unfold LexerS.scanInt IStr.readIntValue
  rw [hzero]
  simp only [Res.ok_bind, readIntS_lit k h hpd hr, e]
  have hh : post.head? ≠ some 0x2E ∧ post.head? ≠ some 0x65 ∧ post.head? ≠ some 0x45 := by
    cases post with
    | nil => simp
    | cons c ps => simpa using hp.2
  simp [hh.1, hh.2.1, hh.2.2]

/-- Reading an integer in front of a number with a fraction or an exponent. -/
theorem scanIntS_frac (l : LexerS) (k : IntKind) {t rest : Bytes} {c : Byte} {v : Int} (h : IntLit t v) (hz : ¬ litLeadingZero t)
    (hc : c = 0x2E ∨ c = 0x65 ∨ c = 0x45) (hr : AtS (t ++ c :: rest) l.inp) : l.scanInt k = throwStd := by
  have hpd : ∀ d ps, c :: rest = d :: ps → isDigit d = false := by
    rintro d ps ⟨rfl, -⟩
    rcases hc with rfl | rfl | rfl <;> decide
  obtain ⟨ch, u, rfl, hz'⟩ := noZero h hz hpd
  have hadv := oks_adv hr (by simp)
  obtain ⟨i', e, -, -⟩ := validateS hadv true
  have hzero := checkZeroS_at (c := ch) (t := u ++ c :: rest) hr hz'
  unfold LexerS.scanInt IStr.readIntValue
  rw [hzero]
  simp only [Res.ok_bind, readIntS_lit k h hpd hr, e]
  rcases hc with rfl | rfl | rfl <;> simp

/-- Reading an integer in front of something that does not start like one. -/
theorem scanIntS_bad (k : IntKind) {l : LexerS} {c : Byte} {t : Bytes} (hd : isDigit c = false) (hm : c ≠ 0x2D) (hpl : c ≠ 0x2B)
    (hr : AtS (c :: t) l.inp) : l.scanInt k = throwStd := by
  have hzero := checkZeroS_at hr (by rintro rfl; exact absurd hd (by decide))
  have hg : ∀ b, IStr.numGet b (c :: t) = ⟨0, 0⟩ := by
    intro b
    unfold IStr.numGet
    simp [hm, hpl, digitPrefix, hd]
  have hrd : ∀ b, l.inp.readUnsigned b = ((false, 0), l.inp) := by
    intro b
    rw [readUnsigned_at b hr, hg]
    simp
  have hri : ∃ x, l.inp.readInt k = ((false, x), l.inp) := by
    unfold IStr.readInt
    cases k.signed with
    | true =>
      simp only [if_true]
      rw [ats_peek hr]
      have : ((c.toNat : Int) == 0x2D) = false := by
        simp only [beq_eq_false_iff_ne, ne_eq]
        intro hh
        exact hm (UInt8.toNat_inj.mp (by simpa using (by exact_mod_cast hh : c.toNat = 45)))
      simp only [this, Bool.false_eq_true, if_false, hrd]
      exact ⟨_, rfl⟩
    | false =>
      simp only [Bool.false_eq_true, if_false, hrd]
      exact ⟨_, rfl⟩
  obtain ⟨x, hri⟩ := hri
  unfold LexerS.scanInt IStr.readIntValue
  rw [hzero]
  simp only [Res.ok_bind, hri, IStr.validateResult]
  simp

/-- Reading a floating point value, in front of something. -/
theorem readFltS_at {i : IStr} {c : Byte} {t : Bytes} (f : FKind) (h : AtS (c :: t) i) :
    i.readFlt f = ((decide ((IStr.numGetFlt f (c :: t)).1 ≠ 0), (IStr.numGetFlt f (c :: t)).2),
      { i with pos := i.pos + (IStr.numGetFlt f (c :: t)).1 }) := by
  obtain ⟨h1, h2⟩ := h.ok (by simp)
  have hr := h.rest
  unfold IStr.rest at hr
  unfold IStr.readFlt
  rw [tellg_ok h]
  simp only [hr]
  rw [tellg_adv h1 h2 h.seek]
  generalize IStr.numGetFlt f (c :: t) = r
  simp only [Prod.mk.injEq, and_true]
  by_cases hz : r.1 = 0
  · simp [hz]
  · simp [hz]; omega

theorem scanFltS_number (l : LexerS) (f : FKind) {t post : Bytes} {x : Decimal} (h : JsonNumber t x) (hp : numberEnds post) (hr : AtS (t ++ post) l.inp) :
    ∃ i', l.scanFlt f = .ok (streamFlt f x, { l with inp := i' }) ∧ OkS post i' := by
  have hlen := number_length h
  have hne : t ≠ [] := by rintro rfl; exact hlen rfl
  have hadv := oks_adv hr hne
  have hng := numGetFlt_number f h hp
  obtain ⟨c, u, rfl⟩ : ∃ c u, t = c :: u := by
    cases t with
    | nil => exact absurd rfl hne
    | cons c u => exact ⟨c, u, rfl⟩
  have hz : c = 0x30 → ∀ d w, u ++ post = d :: w → isDigit d = false ∨ d = 0x30 := by
    rintro rfl d w e
    obtain ⟨s, ip, fp, ep, i, len, fr, ex, hs, hi, hlz, hf, he, ht, hn, hk⟩ := h
    have hi' := dec_iff.1 hi
    unfold SignText at hs
    cases hneg : x.neg with
    | true =>
      rw [hneg] at hs
      simp only [if_true] at hs
      subst hs
      simp at ht
    | false =>
      rw [hneg] at hs
      simp only [Bool.false_eq_true, if_false] at hs
      subst hs
      match ip, hi'.1 with
      | a :: as, _ =>
        simp only [List.nil_append, List.cons_append, List.cons.injEq] at ht
        obtain ⟨rfl, rfl⟩ := ht
        cases as with
        | cons b bs => exact absurd (by simp [leadingZero]) hlz
        | nil =>
          left
          rw [List.nil_append, List.append_assoc] at e
          exact frac_noDigit hf he hp d w e
  have hzero := checkZeroS_at (c := c) (t := u ++ post) hr hz
  have hrd := readFltS_at f (c := c) (t := u ++ post) hr
  rw [show c :: (u ++ post) = (c :: u) ++ post from rfl, hng] at hrd
  refine ⟨_, ?_, hadv⟩
  unfold LexerS.scanFlt IStr.readFltValue
  rw [hzero]
  simp only [Res.ok_bind, hrd, Res.pure_eq]
  simp

theorem scanFltS_bad (f : FKind) {l : LexerS} {c : Byte} {t : Bytes} (hd : isDigit c = false) (hm : c ≠ 0x2D) (hpl : c ≠ 0x2B) (hpt : c ≠ 0x2E)
    (hr : AtS (c :: t) l.inp) : l.scanFlt f = throwStd := by
  have hzero := checkZeroS_at hr (by rintro rfl; exact absurd hd (by decide))
  have hrd := readFltS_at f hr
  rw [numGetFlt_bad f hd hm hpl hpt] at hrd
  unfold LexerS.scanFlt IStr.readFltValue
  rw [hzero]
  simp only [Res.ok_bind, hrd, Res.pure_eq]
  simp

/-! ### Scalars and tokens -/

/-- The parser has control state `c` and stands in front of `text` in a stream that has not failed. -/
structure AtJS (conv : Bool) (c : JCtl) (text : Bytes) (s : JsonS) : Prop where
  ctl : s.ctl = c
  inp : OkS text s.lex.inp
  conv : s.lex.convertBackSlash = conv

/-- A number. -/
def isNum : JScalar → Bool
  | .int _ _ | .frac _ _ => true
  | _ => false

/-- As `jssem`; with `num` off numbers are not skipped or copied. (A number at the very end of a stream can be read, but
skipping or copying it makes the stream fail.) -/
def jssemN (num conv : Bool) : ScalarSem JStr JScalar :=
  { jssem conv with
    skips := fun x => (num || !isNum x) && (jssem conv).skips x
    raw := fun x => if (num || !isNum x) = true then (jssem conv).raw x else none }

theorem jssemN_true (conv : Bool) : jssemN true conv = jssem conv := rfl

/-- What may follow a scalar in a stream. -/
def FineS (num : Bool) (x : JScalar) (post : Bytes) : Prop := Ends (.scalar x) post ∧ (num = true → isNum x = true → post ≠ [])

/-- Everything the client can do with a scalar. -/
theorem scalarS_after {num conv : Bool} {c : JCtl} {x : JScalar} {t post : Bytes} {s : JsonS} (hx : ScalarText codePair x t) (hp' : FineS num x post)
    (h : AtJS conv c (t ++ post) s) (hl : s.lex.lastToken = some (lexOf x)) (hn : s.lex.lastNull = decide (lexOf x = .null_))
    (hb : ∀ b, x = .bool b → s.lex.lastBool = b) : After JsonS.ops (jssemN num conv) (.scalar x) (AtJS conv c post) s := by
  obtain ⟨hctl, hinO, hcv⟩ := h
  have hin := hinO.1
  have hp := hp'.1
  have hnum : ∀ {a f e : Bytes} {i : Int}, IntLit a i → ¬ litLeadingZero a → Frac f → Expo e → t = a ++ (f ++ e) → lexOf x = .number → valueEnds post → post ≠ [] →
      Skips (AtJS conv c post) (JsonS.ops.ignoreData s) ∧ Reads (AtJS conv c post) (JsonS.ops.getRaw s) (.ok t) := by
    intro a f e i h1 h2 h3 h4 h5 h6 hp hne
    subst h5
    obtain ⟨s', e1, -, hO⟩ := readNumberS_at h1 h2 h3 h4 hp hin
    have h' := hO hne
    constructor
    · refine ⟨⟨{ s.lex with inp := s', buffer := a ++ (f ++ e) }, s.ctl⟩, ?_, ⟨hctl, h', hcv⟩⟩
      show (do let l ← s.lex.ignoreRawValue; return ({ s with lex := l } : JsonS) : Res JsonS) = _
      unfold LexerS.ignoreRawValue
      simp only [hl, h6, e1, Res.ok_bind, Res.pure_eq]
    · refine ⟨⟨{ s.lex with inp := s', buffer := a ++ (f ++ e) }, s.ctl⟩, ?_, ⟨hctl, h', hcv⟩⟩
      show (do let (v, l) ← s.lex.getRawString; return (v, ({ s with lex := l } : JsonS)) : Res (Bytes × JsonS)) = _
      unfold LexerS.getRawString
      simp only [hl, h6, e1, Res.ok_bind, Res.pure_eq]
  have hgi : ∀ k, JsonS.ops.getInt k s = (do let (v, l) ← s.lex.scanInt k; return (v, ({ s with lex := l } : JsonS)) : Res (Int × JsonS)) := fun _ => rfl
  have hgs : JsonS.ops.getStr s = (do let (v, l) ← s.lex.getStringInto; return (v, ({ s with lex := l } : JsonS)) : Res (Bytes × JsonS)) := rfl
  have hgb : JsonS.ops.getBool s = (do let (v, l) ← s.lex.getLastBool; return (v, ({ s with lex := l } : JsonS)) : Res (Bool × JsonS)) := rfl
  have hig : JsonS.ops.ignoreData s = (do let l ← s.lex.ignoreRawValue; return ({ s with lex := l } : JsonS) : Res JsonS) := rfl
  have hgr : JsonS.ops.getRaw s = (do let (v, l) ← s.lex.getRawString; return (v, ({ s with lex := l } : JsonS)) : Res (Bytes × JsonS)) := rfl
  have hbad : ∀ (ch : Byte) (cs : Bytes), t = ch :: cs → isDigit ch = false → ch ≠ 0x2D → ch ≠ 0x2B → ∀ k, JsonS.ops.getInt k s = throwStd := by
    rintro ch cs rfl h1 h2 h3 k
    rw [hgi, scanIntS_bad k h1 h2 h3 hin]
    rfl
  have hbadS : ∀ (ch : Byte) (cs : Bytes), t = ch :: cs → ch ≠ 0x22 → JsonS.ops.getStr s = throwStd := by
    rintro ch cs rfl h2
    rw [hgs, getStringS_bad hin h2]
    rfl
  have hbadB : lexOf x ≠ .true_ → lexOf x ≠ .false_ → JsonS.ops.getBool s = throwStd := by
    intro h1 h2
    rw [hgb]
    unfold LexerS.getLastBool
    rw [hl]
    cases hh : lexOf x <;> simp_all <;> rfl
  have hign : ∀ {n : Nat}, t.length = n → n ≠ 0 → OkS post (s.lex.inp.ignore n) := by
    rintro n rfl hne
    exact ats_ignore hin (by rintro rfl; exact hne rfl)
  have hgf : ∀ f, JsonS.ops.getFlt f s = (do let (v, l) ← s.lex.scanFlt f; return (v, ({ s with lex := l } : JsonS)) : Res (Flt × JsonS)) := fun _ => rfl
  have hbadF : ∀ (ch : Byte) (cs : Bytes), t = ch :: cs → isDigit ch = false → ch ≠ 0x2D → ch ≠ 0x2B → ch ≠ 0x2E → ∀ f, JsonS.ops.getFlt f s = throwStd := by
    rintro ch cs rfl h1 h2 h3 h4 f
    rw [hgf, scanFltS_bad f h1 h2 h3 h4 hin]
    rfl
  have hnumF : ∀ {y : Decimal}, JsonNumber t y → valueEnds post → x.number = some y →
      ∀ f, Reads (AtJS conv c post) (JsonS.ops.getFlt f s) ((jssemN num conv).readFlt f x) := by
    intro y hy hp' hxy f
    obtain ⟨i', e1, h3⟩ := scanFltS_number s.lex f hy (valueEnds_number hp') hin
    rw [hgf, e1]
    simp only [jssemN, jssem, hxy]
    exact ⟨_, rfl, ⟨hctl, h3, hcv⟩⟩
  refine ⟨?_, ?_, ?_, ?_, ?_, ?_, ?_⟩
  · show s.lex.lastNull = _
    rw [hn]
    cases x with
    | bool b => cases b <;> simp [lexOf, jssemN, jssem]
    | _ => simp [lexOf, jssemN, jssem]
  · intro k
    cases x with
    | null => rw [hbad _ _ hx (by decide) (by decide) (by decide) k]; rfl
    | bool b => cases b <;> (rw [hbad _ _ hx (by decide) (by decide) (by decide) k]; rfl)
    | str b => rw [hbad _ _ hx.2 (by decide) (by decide) (by decide) k]; rfl
    | frac tx dx =>
      obtain ⟨rfl, ⟨a, i, f, e, h1, h2, h3, h4, h5, rfl⟩, -⟩ := hx
      have : ∃ ch rest, f ++ e = ch :: rest ∧ (ch = 0x2E ∨ ch = 0x65 ∨ ch = 0x45) := by
        cases f with
        | nil =>
          cases e with
          | nil => exact absurd rfl h5
          | cons ch e => exact ⟨ch, e, rfl, .inr (expo_ends h4 ch e rfl).2⟩
        | cons ch f => exact ⟨ch, f ++ e, rfl, .inl (frac_ends h3 ch f rfl).2⟩
      obtain ⟨ch, rest, h6, h7⟩ := this
      rw [hgi, scanIntS_frac s.lex k h1 h2 h7 (rest := rest ++ post) (by rw [h6] at hin; simpa using hin)]
      rfl
    | int tx i =>
      obtain ⟨rfl, h1, h2⟩ := hx
      obtain ⟨i', e1, h3⟩ := scanIntS_lit s.lex k h1 h2 (valueEnds_number hp) hin
      rw [hgi, e1]
      exact ⟨_, rfl, ⟨hctl, h3, hcv⟩⟩
  · cases x with
    | null => rw [hbadB (by decide) (by decide)]; rfl
    | str b => rw [hbadB (by simp [lexOf]) (by simp [lexOf])]; rfl
    | frac b y => rw [hbadB (by simp [lexOf]) (by simp [lexOf])]; rfl
    | int b => rw [hbadB (by simp [lexOf]) (by simp [lexOf])]; rfl
    | bool b =>
      rw [hgb]
      unfold LexerS.getLastBool
      rw [hl]
      have hx' : t = if b then b!"true" else b!"false" := hx
      have hb' := hb b rfl
      cases b with
      | true =>
        simp only [if_true] at hx'
        subst hx'
        obtain ⟨l', e1, h1, h2, h3⟩ := checkFixedS_at hin (by decide)
        simp only [lexOf, e1, Res.ok_bind, Res.pure_eq, h3, hb']
        exact ⟨_, rfl, ⟨hctl, h1, h2.trans hcv⟩⟩
      | false =>
        simp only [Bool.false_eq_true, if_false] at hx'
        subst hx'
        obtain ⟨l', e1, h1, h2, h3⟩ := checkFixedS_at hin (by decide)
        simp only [lexOf, e1, Res.ok_bind, Res.pure_eq, h3, hb']
        exact ⟨_, rfl, ⟨hctl, h1, h2.trans hcv⟩⟩
  · have hlitS : ∀ {a u : Bytes} {i : Int}, IntLit a i → t = a ++ u → JsonS.ops.getStr s = throwStd := by
      rintro a u i h rfl
      cases h with
      | pos h =>
        obtain ⟨d, t, rfl, hd⟩ := digits_head ⟨_, h⟩
        exact hbadS d _ rfl (digit_ne hd).2.2.2.2.2.2.1
      | neg h => exact hbadS _ _ rfl (by decide)
    cases x with
    | null => rw [hbadS _ _ hx (by decide)]; rfl
    | bool b => cases b <;> (rw [hbadS _ _ hx (by decide)]; rfl)
    | int tx i =>
      obtain ⟨rfl, h1, -⟩ := hx
      rw [hlitS (u := []) h1 (by simp)]; rfl
    | frac tx dx =>
      obtain ⟨rfl, ⟨a, i, f, e, h1, -, h3, h4, h5, rfl⟩, -⟩ := hx
      rw [hlitS h1 rfl]; rfl
    | str b =>
      obtain ⟨h1, rfl⟩ := hx
      obtain ⟨l', e1, h2, h3⟩ := getStringS_at h1 hin
      rw [hgs, e1, hcv]
      exact ⟨_, rfl, ⟨hctl, h2, h3.trans hcv⟩⟩
  · intro hk
    rw [hig]
    unfold LexerS.ignoreRawValue
    cases x with
    | null =>
      have hx' : t = b!"null" := hx
      subst hx'
      refine ⟨⟨{ s.lex with inp := s.lex.inp.ignore 4 }, s.ctl⟩, ?_, ⟨hctl, hign rfl (by decide), hcv⟩⟩
      simp only [hl, lexOf, Res.ok_bind, Res.pure_eq]
    | bool b =>
      have hx' : t = if b then b!"true" else b!"false" := hx
      cases b with
      | true =>
        simp only [if_true] at hx'
        subst hx'
        refine ⟨⟨{ s.lex with inp := s.lex.inp.ignore 4 }, s.ctl⟩, ?_, ⟨hctl, hign rfl (by decide), hcv⟩⟩
        simp only [hl, lexOf, Res.ok_bind, Res.pure_eq]
      | false =>
        simp only [Bool.false_eq_true, if_false] at hx'
        subst hx'
        refine ⟨⟨{ s.lex with inp := s.lex.inp.ignore 5 }, s.ctl⟩, ?_, ⟨hctl, hign rfl (by decide), hcv⟩⟩
        simp only [hl, lexOf, Res.ok_bind, Res.pure_eq]
    | int tx i =>
      obtain ⟨rfl, h1, h2⟩ := hx
      exact (hnum h1 h2 (.inl rfl) (.inl rfl) (by simp) rfl hp (hp'.2 (by simpa [jssemN, isNum, jssem] using hk) rfl)).1
    | frac tx dx =>
      obtain ⟨rfl, ⟨a, i, f, e, h1, h2, h3, h4, h5, h6⟩, -⟩ := hx
      exact (hnum h1 h2 h3 h4 h6 rfl hp (hp'.2 (by simpa [jssemN, isNum, jssem] using hk) rfl)).1
    | str b =>
      obtain ⟨h1, rfl⟩ := hx
      have hk' : b.streamSkips = true := by simpa [jssemN, jssem, isNum] using hk
      obtain ⟨i1, i2, e1, e2, h3⟩ := skipStringS_at (ctl := false) h1 hin hk'
      refine ⟨⟨{ s.lex with inp := i2 }, s.ctl⟩, ?_, ⟨hctl, h3, hcv⟩⟩
      simp only [hl, lexOf, e1, show toChar 0x22 = 0x22 by decide, e2, Res.ok_bind, Res.pure_eq]
  · intro b hr
    cases x with
    | null =>
      have hx' : t = b!"null" := hx
      subst hx'
      simp only [jssemN, isNum, jssem, Bool.not_false, Bool.or_true, if_true, Option.some.injEq] at hr
      subst hr
      refine ⟨⟨{ s.lex with inp := s.lex.inp.ignore 4 }, s.ctl⟩, ?_, ⟨hctl, hign rfl (by decide), hcv⟩⟩
      rw [hgr]
      unfold LexerS.getRawString
      simp only [hl, lexOf, Res.ok_bind, Res.pure_eq]
    | bool bb =>
      have hx' : t = if bb then b!"true" else b!"false" := hx
      simp only [jssemN, isNum, jssem, Bool.not_false, Bool.or_true, if_true, Option.some.injEq] at hr
      subst hr
      rw [hgr]
      unfold LexerS.getRawString
      cases bb with
      | true =>
        simp only [if_true] at hx'
        subst hx'
        refine ⟨⟨{ s.lex with inp := s.lex.inp.ignore 4 }, s.ctl⟩, ?_, ⟨hctl, hign rfl (by decide), hcv⟩⟩
        simp only [hl, lexOf, Res.ok_bind, Res.pure_eq, reduceIte]
      | false =>
        simp only [Bool.false_eq_true, if_false] at hx'
        subst hx'
        refine ⟨⟨{ s.lex with inp := s.lex.inp.ignore 5 }, s.ctl⟩, ?_, ⟨hctl, hign rfl (by decide), hcv⟩⟩
        simp only [hl, lexOf, Res.ok_bind, Res.pure_eq, reduceIte, Bool.false_eq_true]
    | int tx i =>
      obtain ⟨rfl, h1, h2⟩ := hx
      simp [jssemN, isNum, jssem, Option.some.injEq] at hr
      obtain ⟨hn', hr⟩ := hr
      subst hr
      exact (hnum h1 h2 (.inl rfl) (.inl rfl) (by simp) rfl hp (hp'.2 hn' rfl)).2
    | frac tx dx =>
      obtain ⟨rfl, ⟨a, i, f, e, h1, h2, h3, h4, h5, h6⟩, -⟩ := hx
      simp [jssemN, isNum, jssem, Option.some.injEq] at hr
      obtain ⟨hn', hr⟩ := hr
      subst hr
      exact (hnum h1 h2 h3 h4 h6 rfl hp (hp'.2 hn' rfl)).2
    | str bb =>
      obtain ⟨h1, rfl⟩ := hx
      simp only [jssemN, isNum, jssem, Bool.not_false, Bool.or_true, if_true] at hr
      split at hr
      · rename_i hc
        simp only [Option.some.injEq] at hr
        subst hr
        obtain ⟨i1, i2, e1, e2, h3⟩ := skipStringS_at (ctl := true) h1 hin hc
        refine ⟨⟨{ s.lex with inp := i2, buffer := [0x22] ++ bb.raw ++ [0x22] }, s.ctl⟩, ?_, ⟨hctl, h3, hcv⟩⟩
        rw [hgr]
        unfold LexerS.getRawString
        simp only [hl, lexOf, e1, show toChar 0x22 = 0x22 by decide, Res.ok_bind, Res.pure_eq, e2]
      · simp at hr
  · intro f
    cases x with
    | null => rw [hbadF _ _ hx (by decide) (by decide) (by decide) (by decide) f]; rfl
    | bool b => cases b <;> (rw [hbadF _ _ hx (by decide) (by decide) (by decide) (by decide) f]; rfl)
    | str b => rw [hbadF _ _ hx.2 (by decide) (by decide) (by decide) (by decide) f]; rfl
    | frac tx dx => exact hnumF hx.2.2 hp rfl f
    | int tx i =>
      obtain ⟨rfl, h1, h2⟩ := hx
      exact hnumF (int_number h1 h2) hp rfl f

/-- The lexer has just classified `ch`, which `t` follows; after a punctuation character the stream has not failed. -/
structure LexedS (conv : Bool) (ch : Byte) (t : Bytes) (l : LexerS) : Prop where
  inp : OkS (if isPunct ch then t else ch :: t) l.inp
  conv : l.convertBackSlash = conv
  tok : l.lastToken = some (Lexer.classify ch)
  null : l.lastNull = decide (Lexer.classify ch = .null_)
  tr : Lexer.classify ch = .true_ → l.lastBool = true
  fa : Lexer.classify ch = .false_ → l.lastBool = false

theorem yylexS_at {conv : Bool} {l : LexerS} {w : Bytes} {ch : Byte} {t : Bytes} (h : AtS (w ++ ch :: t) l.inp) (hcv : l.convertBackSlash = conv)
    (hw : Ws w) (hch : isSpace ch = false) : ∃ l', l.yylex = (Lexer.classify ch, l') ∧ LexedS conv ch t l' := by
  obtain ⟨s', h1, h2, h3⟩ := ats_readChar h (ws_space hw) hch
  unfold LexerS.yylex LexerS.peekNextNonSpace
  rw [h1]
  simp only
  cases hp : isPunct ch with
  | true =>
    simp only [if_true]
    refine ⟨_, rfl, ⟨by simp only [hp, if_true]; exact h2, hcv, rfl, rfl, fun h => by simp [h], fun h => by simp [h]⟩⟩
  | false =>
    simp only [Bool.false_eq_true, if_false]
    refine ⟨_, rfl, ⟨by simp only [hp, Bool.false_eq_true, if_false]; exact h3, hcv, rfl, rfl, fun h => by simp [h], fun h => by simp [h]⟩⟩

/-- A JSON parser on a stream handles single lexemes correctly. -/
def jsonStreamSource (num conv : Bool) : JSource JsonS.ops (jssemN num conv) where
  At := AtJS conv
  Fine := FineS num
  fine h := ⟨Ends.of h, fun _ _ => by simp⟩
  Lx c ch t s := s.ctl = c ∧ LexedS conv ch t s.lex
  next_lex := by
    intro c c' tok w ch t s hst hd he h hw hch hf
    obtain ⟨l, h1, h2⟩ := yylexS_at h.inp.1 h.conv hw hch
    refine ⟨⟨l, c'⟩, ?_, rfl, h2⟩
    show s.getNextToken = _
    unfold JsonS.getNextToken
    rw [h.ctl, if_neg (by simp [hst]), if_neg hd, if_neg he]
    unfold JsonS.lexStep
    rw [h1]
    simp only
    rw [h.ctl, hf]
    rfl
  next_sep := by
    intro c c1 c' tok w1 w2 sep ch t s hst hd he h hw1 hw2 hsep hpu hch hf1 hf
    obtain ⟨l1, h1, h2⟩ := yylexS_at h.inp.1 h.conv hw1 hsep
    have h3 := h2.inp
    rw [hpu, if_pos rfl] at h3
    obtain ⟨l, h4, h5⟩ := yylexS_at h3.1 h2.conv hw2 hch
    refine ⟨⟨l, c'⟩, ?_, rfl, h5⟩
    show s.getNextToken = _
    unfold JsonS.getNextToken
    rw [h.ctl, if_neg (by simp [hst]), if_neg hd, if_neg he]
    unfold JsonS.lexStep
    rw [h1]
    simp only
    rw [h.ctl, hf1]
    simp only [Res.ok_bind]
    unfold JsonS.lexStep
    simp only
    rw [h4]
    simp only
    rw [hf]
    rfl
  lx_punct hp h := by
    obtain ⟨h1, h2⟩ := h
    have h3 := h2.inp
    rw [hp, if_pos rfl] at h3
    exact ⟨h1, h3, h2.conv⟩
  lx_null h := h.2.null
  scalar := by
    intro c x ch cs post s hx hp ⟨hc, hl⟩
    obtain ⟨ch', cs', e, h1, h2, h3⟩ := scalar_head hx
    obtain ⟨rfl, rfl⟩ := List.cons.inj e
    have hin := hl.inp
    rw [h3, if_neg (by simp)] at hin
    refine scalarS_after (t := ch :: cs) hx hp ⟨hc, hin, hl.conv⟩ (by rw [← h1]; exact hl.tok) (by rw [← h1]; exact hl.null) ?_
    rintro b rfl
    cases b with
    | true => exact hl.tr h1
    | false => exact hl.fa h1
  key := by
    rintro c k rest ⟨l, c'⟩ hk ⟨hc, hl⟩
    simp only at hc hl
    subst hc
    have hin := hl.inp
    rw [if_neg (by decide)] at hin
    have hin' : AtS ([0x22] ++ k.raw ++ [0x22] ++ rest) l.inp := by simpa using hin.1
    constructor
    · obtain ⟨l', e1, h2, h3⟩ := getStringS_at hk hin'
      rw [hl.conv] at e1
      refine ⟨⟨{ l' with buffer := k.val conv }, c'⟩, ?_, ⟨rfl, h2, h3.trans hl.conv⟩⟩
      show (do let (v, l) ← l.getString; return (v, (⟨l, c'⟩ : JsonS)) : Res (Bytes × JsonS)) = _
      unfold LexerS.getString
      rw [e1]
      rfl
    · intro hs
      obtain ⟨i1, i2, e1, e2, h3⟩ := skipStringS_at (ctl := false) hk hin' hs
      refine ⟨⟨{ l with inp := i2 }, c'⟩, ?_, ⟨rfl, h3, hl.conv⟩⟩
      show (do let l ← l.ignoreRawValue; return (⟨l, c'⟩ : JsonS) : Res JsonS) = _
      unfold LexerS.ignoreRawValue
      simp only [hl.tok, show Lexer.classify 0x22 = .string by decide, e1, show toChar 0x22 = 0x22 by decide, e2, Res.ok_bind, Res.pure_eq]

/-- What may follow a document in a stream when its value is imported. -/
theorem presents_stream (num conv : Bool) (v : JTree) : (jsonStreamSource num conv).PresentsText v := (jsonStreamSource num conv).presents_text v

end Thors
