import Verif.Props.Stream
/-
C128: what a stream takes for an integer.
-/
namespace Thors.Props
open Thors Spec StrIn

/-- White space as `operator>>(char&)` skips it. -/
def Blank (c : Byte) : Prop := c = 0x20 ∨ c = 0x09 ∨ c = 0x0A ∨ c = 0x0D ∨ c = 0x0B ∨ c = 0x0C

/-- A decimal digit. -/
def Digit128 (c : Byte) : Prop := 0x30 ≤ c ∧ c ≤ 0x39

/-- The text begins with an integer as JSON writes it: perhaps a minus sign, then at least one digit, and the number does not go on. -/
def BeginsWithInteger (t : Bytes) : Prop :=
  ∃ w s ds rest : Bytes, t = w ++ s ++ ds ++ rest ∧ (∀ c ∈ w, Blank c) ∧ (s = [] ∨ s = b!"-") ∧ ds ≠ [] ∧ (∀ d ∈ ds, Digit128 d) ∧
    (∀ c r, rest = c :: r → ¬ Digit128 c ∧ c ≠ 0x2E ∧ c ≠ 0x65 ∧ c ≠ 0x45)

/-- The signs that are taken without a digit behind them. -/
def LoneSign (signed : Bool) (s : Bytes) : Prop := if signed then s = b!"+" ∨ s = b!"--" ∨ s = b!"-+" else s = b!"+" ∨ s = b!"-"

/-- The text begins with something that is taken for an integer: white space, up to two signs, digits (which a `LoneSign` can do
without), and behind them no point and no exponent. A first digit `0` has none of `1` to `9` behind it. -/
def TakenForInteger (signed : Bool) (t : Bytes) : Prop :=
  ∃ w s ds rest : Bytes, t = w ++ s ++ ds ++ rest ∧ (∀ c ∈ w, Blank c) ∧ (∀ d ∈ ds, Digit128 d) ∧
    (((s = [] ∨ s = b!"-") ∧ ds ≠ []) ∨ LoneSign signed s) ∧
    (s = [] → ∀ d r, ds = 0x30 :: d :: r → d = 0x30) ∧
    (∀ c r, rest = c :: r → ¬ Digit128 c ∧ c ≠ 0x2E ∧ c ≠ 0x65 ∧ c ≠ 0x45)

theorem digit128_iff (c : Byte) : Digit128 c ↔ isDigit c = true := by simp [Digit128, isDigit]

theorem blank_iff (c : Byte) : Blank c ↔ isSpace c = true := by simp [Blank, isSpace]

/-- Any text: white space, then nothing or something that is no white space. -/
theorem blank_split : ∀ t : Bytes, ∃ w u, t = w ++ u ∧ (∀ c ∈ w, isSpace c = true) ∧ ∀ c r, u = c :: r → isSpace c = false
  | [] => ⟨[], [], rfl, by simp, by simp⟩
  | c :: t => by
    cases hc : isSpace c with
    | false => exact ⟨[], c :: t, rfl, by simp, by rintro _ _ ⟨rfl, -⟩; exact hc⟩
    | true =>
      obtain ⟨w, u, rfl, h1, h2⟩ := blank_split t
      refine ⟨c :: w, u, rfl, ?_, h2⟩
      intro d hd
      rcases List.mem_cons.mp hd with rfl | hd
      · exact hc
      · exact h1 d hd

theorem digit_split (t : Bytes) : ∃ ds rest, t = ds ++ rest ∧ (∀ c ∈ ds, isDigit c = true) ∧ ∀ c r, rest = c :: r → isDigit c = false := by
  induction t with
  | nil => exact ⟨[], [], rfl, by simp, by simp⟩
  | cons c t ih =>
    cases hc : isDigit c with
    | false => exact ⟨[], c :: t, rfl, by simp, by rintro _ _ ⟨rfl, -⟩; exact hc⟩
    | true =>
      obtain ⟨ds, rest, rfl, h1, h2⟩ := ih
      refine ⟨c :: ds, rest, rfl, ?_, h2⟩
      intro d hd
      rcases List.mem_cons.mp hd with rfl | hd
      · exact hc
      · exact h1 d hd

/-- How far `num_get` reads. -/
theorem numGet_len_plain {b : Nat} {ds rest : Bytes} (hd : ∀ c ∈ ds, isDigit c = true) (hr : ∀ c r, rest = c :: r → isDigit c = false)
    (hs : ds = [] → ∀ c r, rest = c :: r → c ≠ 0x2D ∧ c ≠ 0x2B) : (IStr.numGet b (ds ++ rest)).len = ds.length := by
  have hpre := digitPrefix_append hd hr
  have hh : (ds ++ rest).head? ≠ some 0x2D ∧ (ds ++ rest).head? ≠ some 0x2B := by
    cases ds with
    | nil =>
      cases rest with
      | nil => simp
      | cons c r => simpa using hs rfl c r rfl
    | cons d ds =>
      have := hd d (by simp)
      constructor <;> · simp only [List.cons_append, List.head?_cons, ne_eq, Option.some.injEq]; rintro rfl; revert this; decide
  unfold IStr.numGet
  simp only [hh.1, hh.2, decide_false, Bool.or_self, Bool.false_eq_true, if_false, hpre, Nat.zero_add]

theorem numGet_len_sign {b : Nat} {s : Byte} {ds rest : Bytes} (h : s = 0x2D ∨ s = 0x2B) (hd : ∀ c ∈ ds, isDigit c = true) (hr : ∀ c r, rest = c :: r → isDigit c = false) :
    (IStr.numGet b (s :: (ds ++ rest))).len = ds.length + 1 := by
  have hpre := digitPrefix_append hd hr
  unfold IStr.numGet
  rcases h with rfl | rfl <;> simp [hpre] <;> omega

/-- The end of the input behind a sign. -/
theorem readUnsigned_nil {i : IStr} (h : OkS [] i) (he : i.eof = false) (b : Nat) : (i.readUnsigned b).1.1 = false := by
  have hr := h.1.rest
  unfold IStr.rest at hr
  have ht : i.tellg = ((i.pos : Int), i) := by
    unfold IStr.tellg
    rw [if_neg (by simp [IStr.good, he, h.2]), if_neg (by simp [h.1.seek])]
  unfold IStr.readUnsigned
  rw [ht]
  simp only [hr]
  have : (IStr.numGet b []).len = 0 := rfl
  rw [this]
  simp [ht]

/-- How many bytes reading an integer takes; none: it has failed. -/
def taken (signed : Bool) (t : Bytes) : Nat :=
  match signed, t with
  | true, 0x2D :: u => if (IStr.numGet 0 u).len = 0 then 0 else (IStr.numGet 0 u).len + 1
  | _, t => (IStr.numGet 0 t).len

theorem numGet_len_bits (a b : Nat) (t : Bytes) : (IStr.numGet a t).len = (IStr.numGet b t).len := rfl

theorem readInt_at {i : IStr} {c : Byte} {t : Bytes} (k : IntKind) (h : AtS (c :: t) i) :
    (i.readInt k).1.1 = decide (taken k.signed (c :: t) ≠ 0) ∧
    (taken k.signed (c :: t) ≠ 0 → (i.readInt k).2 = { i with pos := i.pos + taken k.signed (c :: t) }) := by
  have plain : (i.readUnsigned k.bits).1.1 = decide ((IStr.numGet 0 (c :: t)).len ≠ 0) ∧
      (i.readUnsigned k.bits).2 = { i with pos := i.pos + (IStr.numGet 0 (c :: t)).len } := by
    rw [readUnsigned_at _ h]
    exact ⟨rfl, rfl⟩
  unfold IStr.readInt
  cases hk : k.signed with
  | false =>
    simp only [Bool.false_eq_true, if_false]
    exact ⟨plain.1, fun _ => plain.2⟩
  | true =>
    simp only [if_true]
    rw [ats_peek h]
    by_cases hc : c = 0x2D
    · subst hc
      simp only [show (((0x2D : Byte).toNat : Int) == 0x2D) = true from rfl, if_true]
      obtain ⟨hlt, hcc⟩ := ats_head h
      obtain ⟨he, hf⟩ := h.ok (by simp)
      have hget : i.get.2 = { i with pos := i.pos + 1 } := by
        unfold IStr.get
        rw [if_neg (by simp [ats_good h]), if_pos hlt]
      have hok : OkS t { i with pos := i.pos + 1 } := oks_adv (t := [0x2D]) h (by simp)
      rw [hget]
      cases t with
      | nil =>
        have := readUnsigned_nil hok he k.bits
        refine ⟨?_, fun hh => absurd rfl hh⟩
        simp only [this]
        rfl
      | cons d u =>
        rw [readUnsigned_at _ hok.1]
        simp only [numGet_len_bits k.bits 0]
        show decide ((IStr.numGet 0 (d :: u)).len ≠ 0) = decide ((if (IStr.numGet 0 (d :: u)).len = 0 then 0 else (IStr.numGet 0 (d :: u)).len + 1) ≠ 0) ∧
          ((if (IStr.numGet 0 (d :: u)).len = 0 then 0 else (IStr.numGet 0 (d :: u)).len + 1) ≠ 0 → _ =
            ({ i with pos := i.pos + (if (IStr.numGet 0 (d :: u)).len = 0 then 0 else (IStr.numGet 0 (d :: u)).len + 1) } : IStr))
        by_cases hz : (IStr.numGet 0 (d :: u)).len = 0
        · simp [hz]
        · simp only [hz, if_false]
          refine ⟨by simp [hz], fun _ => ?_⟩
          simp only [IStr.mk.injEq, true_and, and_true]
          omega
    · have hb : ((c.toNat : Int) == 0x2D) = false := by
        simp only [beq_eq_false_iff_ne, ne_eq]
        intro hh
        exact hc (UInt8.toNat_inj.mp (by simpa using (by exact_mod_cast hh : c.toNat = 45)))
      simp only [hb, Bool.false_eq_true, if_false]
      have ht : taken true (c :: t) = (IStr.numGet 0 (c :: t)).len := by
        unfold taken
        split
        · rename_i heq
          exact absurd (List.cons.inj heq).1 hc
        · rfl
      rw [ht]
      exact ⟨plain.1, fun _ => plain.2⟩


theorem taken_other {g : Bool} {t : Bytes} (h : g = true → ∀ r, t ≠ 0x2D :: r) : taken g t = (IStr.numGet 0 t).len := by
  unfold taken
  split
  · rename_i u
    exact absurd rfl (h rfl u)
  · rfl

/-- Signs and digits are taken as a whole. -/
theorem taken_shape {g : Bool} {s ds rest : Bytes} (hd : ∀ c ∈ ds, isDigit c = true) (hr : ∀ c r, rest = c :: r → isDigit c = false)
    (hs : ((s = [] ∨ s = b!"-") ∧ ds ≠ []) ∨ LoneSign g s) : taken g (s ++ ds ++ rest) = (s ++ ds).length ∧ s ++ ds ≠ [] := by
  have nominus : ∀ c t, isDigit c = true → c :: t ≠ 0x2D :: ([] : Bytes) → ∀ r, c :: t ≠ 0x2D :: r := by
    rintro c t h - r ⟨rfl, -⟩
    revert h; decide
  rcases hs with ⟨rfl | rfl, hne⟩ | hs
  · cases ds with
    | nil => exact absurd rfl hne
    | cons d ds =>
      have hdd := hd d (by simp)
      refine ⟨?_, by simp⟩
      rw [List.nil_append, taken_other, numGet_len_plain hd hr (by simp)]
      rintro - r ⟨rfl, -⟩
      revert hdd; decide
  · have hl := numGet_len_plain (b := 0) hd hr (by simp [hne])
    have h0 : ds.length ≠ 0 := by simpa using hne
    refine ⟨?_, by simp⟩
    cases g with
    | true =>
      show (if (IStr.numGet 0 (ds ++ rest)).len = 0 then 0 else (IStr.numGet 0 (ds ++ rest)).len + 1) = ds.length + 1
      rw [hl, if_neg h0]
    | false =>
      show (IStr.numGet 0 (0x2D :: (ds ++ rest))).len = ds.length + 1
      exact numGet_len_sign (.inl rfl) hd hr
  · have plus : s = b!"+" → taken g (s ++ ds ++ rest) = (s ++ ds).length ∧ s ++ ds ≠ [] := by
      rintro rfl
      refine ⟨?_, by simp⟩
      rw [taken_other (by rintro - r ⟨⟩)]
      exact numGet_len_sign (.inr rfl) hd hr
    have two : ∀ x : Byte, x = 0x2D ∨ x = 0x2B → taken true (0x2D :: x :: (ds ++ rest)) = ds.length + 1 + 1 := by
      intro x hx
      have hl := numGet_len_sign (b := 0) hx hd hr
      show (if (IStr.numGet 0 (x :: (ds ++ rest))).len = 0 then 0 else (IStr.numGet 0 (x :: (ds ++ rest))).len + 1) = _
      rw [hl, if_neg (by omega)]
    cases g with
    | true =>
      simp only [LoneSign, if_true] at hs
      rcases hs with h | rfl | rfl
      · exact plus h
      · exact ⟨two _ (.inl rfl), by simp⟩
      · exact ⟨two _ (.inr rfl), by simp⟩
    | false =>
      simp only [LoneSign, Bool.false_eq_true, if_false] at hs
      rcases hs with h | rfl
      · exact plus h
      · exact ⟨numGet_len_sign (.inl rfl) hd hr, by simp⟩

/-- Whatever is taken is signs and digits. -/
theorem shape_of_taken {g : Bool} {t : Bytes} (h : taken g t ≠ 0) : ∃ s ds rest, t = s ++ ds ++ rest ∧ (∀ c ∈ ds, isDigit c = true) ∧
    (∀ c r, rest = c :: r → isDigit c = false) ∧ (((s = [] ∨ s = b!"-") ∧ ds ≠ []) ∨ LoneSign g s) := by
  by_cases hm : ∃ u, t = 0x2D :: u
  · obtain ⟨u, rfl⟩ := hm
    cases g with
    | false =>
      obtain ⟨ds, rest, rfl, h1, h2⟩ := digit_split u
      exact ⟨b!"-", ds, rest, rfl, h1, h2, .inr (by simp [LoneSign])⟩
    | true =>
      by_cases hu : ∃ x v, u = x :: v ∧ (x = 0x2D ∨ x = 0x2B)
      · obtain ⟨x, v, rfl, hx⟩ := hu
        obtain ⟨ds, rest, rfl, h1, h2⟩ := digit_split v
        refine ⟨[0x2D, x], ds, rest, rfl, h1, h2, .inr ?_⟩
        rcases hx with rfl | rfl <;> simp [LoneSign]
      · obtain ⟨ds, rest, rfl, h1, h2⟩ := digit_split u
        refine ⟨b!"-", ds, rest, rfl, h1, h2, .inl ⟨.inr rfl, ?_⟩⟩
        rintro rfl
        have hl := numGet_len_plain (b := 0) h1 h2 (fun _ c r e => ⟨fun hc => hu ⟨c, r, e, .inl hc⟩, fun hc => hu ⟨c, r, e, .inr hc⟩⟩)
        have : taken true (0x2D :: ([] ++ rest)) = (if (IStr.numGet 0 ([] ++ rest)).len = 0 then 0 else (IStr.numGet 0 ([] ++ rest)).len + 1) := rfl
        rw [this, hl] at h
        exact h rfl
  · rw [taken_other (fun _ r e => hm ⟨r, e⟩)] at h
    by_cases hp : ∃ u, t = 0x2B :: u
    · obtain ⟨u, rfl⟩ := hp
      obtain ⟨ds, rest, rfl, h1, h2⟩ := digit_split u
      exact ⟨b!"+", ds, rest, rfl, h1, h2, .inr (by cases g <;> simp [LoneSign])⟩
    · obtain ⟨ds, rest, rfl, h1, h2⟩ := digit_split t
      refine ⟨[], ds, rest, rfl, h1, h2, .inl ⟨.inl rfl, ?_⟩⟩
      rintro rfl
      rw [numGet_len_plain h1 h2 (fun _ c r e => ⟨fun hc => hm ⟨r, by rw [List.nil_append, e, hc]⟩, fun hc => hp ⟨r, by rw [List.nil_append, e, hc]⟩⟩)] at h
      exact h rfl

/-- A `0` with one of `1` to `9` behind it. -/
theorem checkZero_throws {i : IStr} {d : Byte} {t : Bytes} (h : AtS (0x30 :: d :: t) i) (hd : isDigit d = true) (hz : d ≠ 0x30) : i.checkZero = throwStd := by
  unfold IStr.checkZero
  rw [ats_peek h]
  simp only
  rw [if_pos (by decide)]
  obtain ⟨i1, e1, h1, hu, -⟩ := ats_get h
  rw [e1]
  simp only
  rw [ats_peek h1.1]
  simp only
  rw [if_pos]
  simp only [isDigit, decide_eq_true_eq, UInt8.le_iff_toNat_le] at hd
  have e1 : (0x30 : Byte).toNat = 48 := rfl
  have e2 : (0x39 : Byte).toNat = 57 := rfl
  rw [e1, e2] at hd
  have : d.toNat ≠ 48 := fun hh => hz (UInt8.toNat_inj.mp hh)
  omega

/-- Reading an integer: when it succeeds. -/
theorem scanInt_iff (l : LexerS) (k : IntKind) {c : Byte} {t : Bytes} (hr : AtS (c :: t) l.inp) :
    (∃ x, l.scanInt k = .ok x) ↔ (∀ d r, c :: t = 0x30 :: d :: r → isDigit d = false ∨ d = 0x30) ∧ taken k.signed (c :: t) ≠ 0 ∧
      ∀ e r, (c :: t).drop (taken k.signed (c :: t)) = e :: r → e ≠ 0x2E ∧ e ≠ 0x65 ∧ e ≠ 0x45 := by
  by_cases hz : ∀ d r, c :: t = 0x30 :: d :: r → isDigit d = false ∨ d = 0x30
  · have hzero : l.inp.checkZero = .ok l.inp := checkZeroS_at hr (by rintro rfl d u rfl; exact hz d u rfl)
    obtain ⟨h1, h2⟩ := readInt_at k hr
    by_cases h0 : taken k.signed (c :: t) = 0
    · have : l.scanInt k = throwStd := by
        unfold LexerS.scanInt IStr.readIntValue
        rw [hzero]
        simp only [h0, ne_eq, not_true_eq_false, decide_false] at h1
        simp only [Res.ok_bind, h1, IStr.validateResult, Bool.false_and]
        rfl
      rw [this]
      simp [h0, throwStd]
    · have h3 := h2 h0
      have hle : ∃ a rest, c :: t = a ++ rest ∧ a.length = taken k.signed (c :: t) := by
        obtain ⟨s, ds, rest, e, a1, a2, a3⟩ := shape_of_taken h0
        exact ⟨s ++ ds, rest, e, by rw [e, (taken_shape a1 a2 a3).1]⟩
      obtain ⟨a, rest, ea, el⟩ := hle
      have ha : a ≠ [] := by rintro rfl; exact h0 el.symm
      rw [ea] at hr
      have hadv := oks_adv hr ha
      rw [el] at hadv
      obtain ⟨i', e, -, -⟩ := validateS hadv true
      have hdrop : (c :: t).drop (taken k.signed (c :: t)) = rest := by rw [← el, ea]; simp
      have hb : (l.inp.readInt k).1.1 = true := by rw [h1]; simp [h0]
      have hscan : l.scanInt k = if ¬ (decide (rest.head? ≠ some 0x2E) && decide (rest.head? ≠ some 0x65) && decide (rest.head? ≠ some 0x45)) = true then throwStd
          else .ok ((l.inp.readInt k).1.2, { l with inp := i' }) := by
        unfold LexerS.scanInt IStr.readIntValue
        rw [hzero]
        simp only [Res.ok_bind, hb, h3, e, Bool.true_and]
        rfl
      rw [hscan, hdrop]
      cases rest with
      | nil => exact ⟨fun _ => ⟨hz, h0, by simp⟩, fun _ => ⟨_, if_neg (by simp)⟩⟩
      | cons x r =>
        simp only [List.head?_cons, ne_eq, Option.some.injEq, Bool.and_eq_true, decide_eq_true_eq]
        constructor
        · rintro ⟨y, hy⟩
          refine ⟨hz, h0, ?_⟩
          rintro e r' ⟨rfl, -⟩
          split at hy
          · cases hy
          · rename_i hh
            have := Classical.not_not.mp hh
            exact ⟨this.1.1, this.1.2, this.2⟩
        · rintro ⟨-, -, hh⟩
          obtain ⟨b1, b2, b3⟩ := hh x r rfl
          rw [if_neg (by simp [b1, b2, b3])]
          exact ⟨_, rfl⟩
  · have : l.scanInt k = throwStd := by
      have : ∃ d r, c :: t = 0x30 :: d :: r ∧ isDigit d = true ∧ d ≠ 0x30 := by
        apply Classical.byContradiction
        intro hn
        apply hz
        intro d r e
        cases hd : isDigit d with
        | false => exact .inl rfl
        | true =>
          right
          apply Classical.byContradiction
          intro hne
          exact hn ⟨d, r, e, hd, hne⟩
      obtain ⟨d, r, e, hd, hne⟩ := this
      rw [e] at hr
      unfold LexerS.scanInt IStr.readIntValue
      rw [checkZero_throws hr hd hne]
      rfl
    rw [this]
    simp only [hz, false_and, iff_false]
    rintro ⟨x, hx⟩
    cases hx

/-- The import of an integer, once the parser has found a value. -/
theorem import_int_value (env : Env) (cfg : Cfg) (conv : Bool) (k : IntKind) (old : Val) (t : Bytes) {l : LexerS}
    (h : (PI.init (⟨(JsonS.ofStream (IStr.ofBytes t) conv).lex, ⟨.Done, .Init, [], true⟩⟩ : JsonS)).getToken JsonS.ops = .ok (.Value, PI.init ⟨l, ⟨.Done, .Done, [], true⟩⟩)) :
    jsonStreamImport env cfg conv (.int k) old (IStr.ofBytes t) = (do let (v, l) ← l.scanInt k; return (.int v, l.inp)) := by
  unfold jsonStreamImport importValue
  have h0 : (PI.init (JsonS.ofStream (IStr.ofBytes t) conv)).getToken JsonS.ops =
    .ok (.DocStart, PI.init ⟨(JsonS.ofStream (IStr.ofBytes t) conv).lex, ⟨.Done, .Init, [], true⟩⟩) := rfl
  rw [h0]
  simp only [Res.ok_bind, ne_eq, not_true_eq_false, if_false]
  rw [deser, h]
  simp only [Res.ok_bind, ne_eq, not_true_eq_false, if_false]
  have hg : JsonS.ops.getInt k (PI.init (⟨l, ⟨.Done, .Done, [], true⟩⟩ : JsonS)).inner =
    (do let (v, l) ← l.scanInt k; return (v, (⟨l, ⟨.Done, .Done, [], true⟩⟩ : JsonS)) : Res (Int × JsonS)) := rfl
  rw [hg]
  cases l.scanInt k with
  | ok x => rfl
  | _ => rfl

/-- What is no value is no integer. -/
theorem import_int_other (env : Env) (cfg : Cfg) (conv : Bool) (k : IntKind) (old : Val) (t : Bytes) {tok : Tok} {p : PI JsonS} (hne : tok ≠ .Value)
    (h : (PI.init (⟨(JsonS.ofStream (IStr.ofBytes t) conv).lex, ⟨.Done, .Init, [], true⟩⟩ : JsonS)).getToken JsonS.ops = .ok (tok, p)) :
    jsonStreamImport env cfg conv (.int k) old (IStr.ofBytes t) = throwStd := by
  unfold jsonStreamImport importValue
  have h0 : (PI.init (JsonS.ofStream (IStr.ofBytes t) conv)).getToken JsonS.ops =
    .ok (.DocStart, PI.init ⟨(JsonS.ofStream (IStr.ofBytes t) conv).lex, ⟨.Done, .Init, [], true⟩⟩) := rfl
  rw [h0]
  simp only [Res.ok_bind, ne_eq, not_true_eq_false, if_false]
  rw [deser, h]
  simp only [Res.ok_bind]
  rw [if_pos hne]
  rfl

/-- The first token of a document. -/
theorem first_token (conv : Bool) (t : Bytes) :
    (PI.init (⟨(JsonS.ofStream (IStr.ofBytes t) conv).lex, ⟨.Done, .Init, [], true⟩⟩ : JsonS)).getToken JsonS.ops =
      (do let (tok, s) ← JsonS.lexStep 2 ⟨(JsonS.ofStream (IStr.ofBytes t) conv).lex, ⟨.Done, .Init, [], true⟩⟩
          return (tok, (PI.init s : PI JsonS))) := rfl

theorem lexStep_first (l l' : LexerS) (x : Lexeme) (h : l.yylex = (x, l')) :
    JsonS.lexStep 2 ⟨l, ⟨.Done, .Init, [], true⟩⟩ = (do
      let (t, ctl) ← JCtl.feed ⟨.Done, .Init, [], true⟩ x
      match t with
      | some t => return (t, { lex := l', ctl := ctl })
      | none => JsonS.lexStep 1 { lex := l', ctl := ctl }) := by
  rw [JsonS.lexStep]
  simp only [h]
  rfl

theorem classify_plain {c : Byte} (h : isPunct c = false) : ∀ s, JCtl.feed ⟨.Done, .Init, [], s⟩ (Lexer.classify c) = .ok (some .Value, ⟨.Done, .Done, [], s⟩) := by
  intro s
  simp only [isPunct, decide_eq_false_iff_not, not_or] at h
  unfold Lexer.classify
  rw [if_neg h.1, if_neg h.2.1, if_neg h.2.2.1, if_neg h.2.2.2.1, if_neg h.2.2.2.2.1, if_neg h.2.2.2.2.2]
  repeat' split
  all_goals rfl

theorem classify_punct {c : Byte} (h : isPunct c = true) (s : Bool) :
    ∃ tok ctl, JCtl.feed ⟨.Done, .Init, [], s⟩ (Lexer.classify c) = .ok (some tok, ctl) ∧ tok ≠ .Value := by
  simp only [isPunct, decide_eq_true_eq] at h
  rcases h with rfl | rfl | rfl | rfl | rfl | rfl
  all_goals exact ⟨_, _, rfl, by decide⟩

/-- Nothing but white space: no integer. -/
theorem scanInt_failed {l : LexerS} (h : l.inp.good = false) (k : IntKind) : l.scanInt k = throwStd := by
  have hp : l.inp.peek = (EOFv, { l.inp with fail := true }) := by unfold IStr.peek; rw [if_pos h]
  have hg : ∀ i : IStr, i.fail = true → i.peek = (EOFv, i) ∧ i.tellg = (-1, i) := by
    intro i hi
    obtain ⟨d, p, e, f, s⟩ := i
    simp only at hi
    subst hi
    exact ⟨by unfold IStr.peek; rw [if_pos (by simp [IStr.good])], by unfold IStr.tellg; rw [if_pos (by simp [IStr.good])]⟩
  have hu : ∀ (i : IStr) b, i.fail = true → (i.readUnsigned b).1.1 = false := by
    intro i b hi
    unfold IStr.readUnsigned
    rw [(hg i hi).2]
    simp only
    rw [(hg ⟨i.data, i.pos + _, i.eof, i.fail, i.seekable⟩ hi).2]
    rfl
  unfold LexerS.scanInt IStr.readIntValue IStr.checkZero
  rw [hp]
  simp only [show (EOFv = 0x30) = False from by simp [EOFv], if_false, Res.ok_bind]
  have hr : (({ l.inp with fail := true } : IStr).readInt k).1.1 = false := by
    unfold IStr.readInt
    rw [(hg { l.inp with fail := true } rfl).1]
    cases k.signed with
    | true =>
      simp only [if_true, show (EOFv == 0x2D) = false from rfl, Bool.false_eq_true, if_false]
      exact hu _ _ rfl
    | false =>
      simp only [Bool.false_eq_true, if_false]
      exact hu _ _ rfl
  simp only [hr, IStr.validateResult, Bool.false_and]
  rfl

/-- What is taken for an integer begins with a sign or a digit. -/
theorem taken_head {g : Bool} {w u : Bytes} (h : TakenForInteger g (w ++ u)) (hw : ∀ c ∈ w, isSpace c = true) (hu : ∀ c r, u = c :: r → isSpace c = false) :
    ∃ s ds rest, u = s ++ ds ++ rest ∧ (∀ d ∈ ds, isDigit d = true) ∧ (((s = [] ∨ s = b!"-") ∧ ds ≠ []) ∨ LoneSign g s) ∧
      (s = [] → ∀ d r, ds = 0x30 :: d :: r → d = 0x30) ∧ (∀ c r, rest = c :: r → isDigit c = false ∧ c ≠ 0x2E ∧ c ≠ 0x65 ∧ c ≠ 0x45) ∧
      ∃ c r, u = c :: r ∧ isPunct c = false := by
  obtain ⟨w', s, ds, rest, e, h1, h2, h3, h4, h5⟩ := h
  have hhead : ∃ c r, s ++ ds ++ rest = c :: r ∧ isSpace c = false ∧ isPunct c = false := by
    rcases h3 with ⟨rfl | rfl, hne⟩ | h3
    · cases ds with
      | nil => exact absurd rfl hne
      | cons d ds =>
        refine ⟨d, ds ++ rest, rfl, ?_⟩
        have hd := (h2 d (by simp))
        have : ∀ d : Byte, Digit128 d → isSpace d = false ∧ isPunct d = false := by
          intro d hd
          simp only [Digit128, UInt8.le_iff_toNat_le] at hd
          have e1 : (0x30 : Byte).toNat = 48 := rfl
          have e2 : (0x39 : Byte).toNat = 57 := rfl
          rw [e1, e2] at hd
          simp only [isSpace, isPunct, decide_eq_false_iff_not, not_or]
          refine ⟨⟨?_, ?_, ?_, ?_, ?_, ?_⟩, ?_, ?_, ?_, ?_, ?_, ?_⟩ <;> (rintro rfl; revert hd; decide)
        exact this d hd
    · exact ⟨_, _, rfl, by decide, by decide⟩
    · cases g with
      | true =>
        simp only [LoneSign, if_true] at h3
        rcases h3 with rfl | rfl | rfl <;> exact ⟨_, _, rfl, by decide, by decide⟩
      | false =>
        simp only [LoneSign, Bool.false_eq_true, if_false] at h3
        rcases h3 with rfl | rfl <;> exact ⟨_, _, rfl, by decide, by decide⟩
  obtain ⟨c, r, ec, hs, hp⟩ := hhead
  have key : ∀ (w w' : Bytes), (∀ c ∈ w, isSpace c = true) → (∀ c ∈ w', isSpace c = true) → w ++ u = w' ++ (c :: r) → u = c :: r := by
    intro w
    induction w with
    | nil =>
      intro w' _ h2 e
      cases w' with
      | nil => exact e
      | cons x w' =>
        have := hu x _ e
        rw [h2 x (by simp)] at this
        cases this
    | cons x w ih =>
      intro w' h1 h2 e
      cases w' with
      | nil =>
        have : x = c := (List.cons.inj e).1
        rw [← this, h1 x (by simp)] at hs
        cases hs
      | cons y w' => exact ih w' (fun c hc => h1 c (by simp [hc])) (fun c hc => h2 c (by simp [hc])) (List.cons.inj e).2
  have hu' := key w w' hw (fun c hc => (blank_iff c).mp (h1 c hc)) (by rw [e, ← ec]; simp)
  refine ⟨s, ds, rest, hu'.trans ec.symm, fun d hd => (digit128_iff d).mp (h2 d hd), h3, h4, ?_, c, r, hu', hp⟩
  intro c r e
  obtain ⟨a, b⟩ := h5 c r e
  refine ⟨?_, b⟩
  cases hc : isDigit c with
  | false => rfl
  | true => exact absurd ((digit128_iff c).mpr hc) a

/-- C128, what is taken. For every type of integer, every old value and every text: the import from a (seekable) stream succeeds exactly
if the text begins with white space, signs and digits as in `TakenForInteger`. That is every integer JSON can write, and a little more, see `C128_false`. -/
theorem C128_exactly_partial (env : Env) (cfg : Cfg) (conv : Bool) (k : IntKind) (old : Val) (t : Bytes) :
    (∃ r, jsonStreamImport env cfg conv (.int k) old (IStr.ofBytes t) = .ok r) ↔ TakenForInteger k.signed t := by
  obtain ⟨w, u, rfl, hw, hu⟩ := blank_split t
  cases u with
  | nil =>
    constructor
    · rintro ⟨r, h⟩
      exfalso
      have hs : spaces w = w.length := by
        have := spaces_append (w := w) (t := []) hw
        simpa [spaces] using this
      have hrc : (IStr.ofBytes (w ++ [])).readChar = (none, ⟨w ++ [], (w ++ []).length, true, true, true⟩) := by
        unfold IStr.readChar
        rw [if_neg (by simp [IStr.good, IStr.ofBytes])]
        simp only [IStr.ofBytes, List.drop_zero, List.append_nil, hs]
        rw [if_neg (by omega)]
      have hy : (JsonS.ofStream (IStr.ofBytes (w ++ [])) conv).lex.yylex = 
          (.number, ⟨⟨w ++ [], (w ++ []).length, true, true, true⟩, [], some .number, false, false, conv⟩) := by
        unfold LexerS.yylex LexerS.peekNextNonSpace
        rw [show (JsonS.ofStream (IStr.ofBytes (w ++ [])) conv).lex.inp = IStr.ofBytes (w ++ []) from rfl, hrc]
        rfl
      have ht := first_token conv (w ++ [])
      rw [lexStep_first _ _ _ hy] at ht
      rw [import_int_value env cfg conv k old _ ht, scanInt_failed rfl] at h
      cases h
    · intro h
      obtain ⟨-, -, -, -, -, -, -, -, c, r, h, -⟩ := taken_head h hw hu
      cases h
  | cons c r =>
    have hc := hu c r rfl
    have hat : AtS (w ++ c :: r) (IStr.ofBytes (w ++ c :: r)) := (ready_ofBytes _).oks.1
    obtain ⟨i', e1, h1, h2⟩ := ats_readChar hat hw hc
    cases hp : isPunct c with
    | true =>
      constructor
      · rintro ⟨x, h⟩
        exfalso
        obtain ⟨tok, ctl, hf, hne⟩ := classify_punct hp true
        have hy : ∃ l', (JsonS.ofStream (IStr.ofBytes (w ++ c :: r)) conv).lex.yylex = (Lexer.classify c, l') := by
          unfold LexerS.yylex LexerS.peekNextNonSpace
          rw [show (JsonS.ofStream (IStr.ofBytes (w ++ c :: r)) conv).lex.inp = IStr.ofBytes (w ++ c :: r) from rfl, e1]
          simp only [hp, if_true]
          exact ⟨_, rfl⟩
        obtain ⟨l', hy⟩ := hy
        have ht := first_token conv (w ++ c :: r)
        rw [lexStep_first _ _ _ hy, hf] at ht
        rw [import_int_other env cfg conv k old _ hne ht] at h
        cases h
      · intro h
        obtain ⟨-, -, -, -, -, -, -, -, c', r', h, hp'⟩ := taken_head h hw hu
        obtain ⟨rfl, -⟩ := List.cons.inj h
        rw [hp] at hp'
        cases hp'
    | false =>
      have hy : ∃ l', (JsonS.ofStream (IStr.ofBytes (w ++ c :: r)) conv).lex.yylex = (Lexer.classify c, l') ∧ l'.inp = i'.unget := by
        unfold LexerS.yylex LexerS.peekNextNonSpace
        rw [show (JsonS.ofStream (IStr.ofBytes (w ++ c :: r)) conv).lex.inp = IStr.ofBytes (w ++ c :: r) from rfl, e1]
        simp only [hp, Bool.false_eq_true, if_false]
        exact ⟨_, rfl, rfl⟩
      obtain ⟨l', hy, hl⟩ := hy
      have ht := first_token conv (w ++ c :: r)
      rw [lexStep_first _ _ _ hy, classify_plain hp] at ht
      rw [import_int_value env cfg conv k old _ ht]
      have hs := scanInt_iff l' k (c := c) (t := r) (by rw [hl]; exact h2.1)
      have e : (∃ x, (do let (v, l) ← l'.scanInt k; return (.int v, l.inp) : Res (Val × IStr)) = .ok x) ↔ ∃ x, l'.scanInt k = .ok x := by
        cases l'.scanInt k with
        | ok x => exact ⟨fun _ => ⟨_, rfl⟩, fun _ => ⟨_, rfl⟩⟩
        | _ => constructor <;> (rintro ⟨x, h⟩; cases h)
      rw [e, hs]
      constructor
      · rintro ⟨a1, a2, a3⟩
        obtain ⟨s, ds, rest, e, b1, b2, b3⟩ := shape_of_taken a2
        have hd : (c :: r).drop (taken k.signed (c :: r)) = rest := by
          rw [e, (taken_shape b1 b2 b3).1]; simp
        rw [hd] at a3
        refine ⟨w, s, ds, rest, by rw [e]; simp, fun c hc => (blank_iff c).mpr (hw c hc), fun d hd => (digit128_iff d).mpr (b1 d hd), b3, ?_, ?_⟩
        · rintro rfl d r' rfl
          rcases a1 d (r' ++ rest) (by rw [e]; simp) with h | h
          · rw [b1 d (by simp)] at h; cases h
          · exact h
        · intro x r' hx
          refine ⟨?_, a3 x r' hx⟩
          rw [digit128_iff, b2 x r' hx]
          simp
      · intro h
        obtain ⟨s, ds, rest, e, b1, b2, b3, b4, -⟩ := taken_head h hw hu
        obtain ⟨c1, c2⟩ := taken_shape b1 (fun c r h => (b4 c r h).1) b2
        have hd : (c :: r).drop (taken k.signed (c :: r)) = rest := by
          rw [e, c1]; simp
        rw [hd]
        refine ⟨?_, ?_, fun x r' hx => (b4 x r' hx).2⟩
        · intro d r' hx
          rw [e] at hx
          have hsz : s = [] := by
            rcases b2 with ⟨h | h, -⟩ | h
            · exact h
            · rw [h] at hx; cases hx
            · cases hg : k.signed with
              | true =>
                simp only [hg, LoneSign, if_true] at h
                rcases h with h | h | h <;> (rw [h] at hx; cases hx)
              | false =>
                simp only [hg, LoneSign, Bool.false_eq_true, if_false] at h
                rcases h with h | h <;> (rw [h] at hx; cases hx)
          subst hsz
          cases ds with
          | nil =>
            exact absurd rfl c2
          | cons a ds =>
            cases ds with
            | nil =>
              simp only [List.nil_append, List.cons_append, List.cons.injEq] at hx
              exact .inl (b4 d r' hx.2).1
            | cons b ds =>
              simp only [List.nil_append, List.cons_append, List.cons.injEq] at hx
              obtain ⟨rfl, rfl, -⟩ := hx
              exact .inr (b3 rfl b ds rfl)
        · rw [e, c1]
          intro h0
          exact c2 (List.eq_nil_of_length_eq_zero h0)

/-- Every integer of JSON is taken, if it has no leading zero. -/
theorem C128_json_taken {t : Bytes} (h : BeginsWithInteger t) (hz : ∀ w d r, t = w ++ 0x30 :: d :: r → (∀ c ∈ w, Blank c) → Digit128 d → d = 0x30) (g : Bool) :
    TakenForInteger g t := by
  obtain ⟨w, s, ds, rest, e, h1, h2, h3, h4, h5⟩ := h
  refine ⟨w, s, ds, rest, e, h1, h4, .inl ⟨h2, h3⟩, ?_, h5⟩
  rintro rfl d r rfl
  exact hz w d (r ++ rest) (by rw [e]; simp) h1 (h4 d (by simp))

/-- Two lines, a negative number and what follows: taken, into a signed and into an unsigned type. -/
example (env : Env) (cfg : Cfg) (conv : Bool) (old : Val) (k : IntKind) : ∃ r, jsonStreamImport env cfg conv (.int k) old (IStr.ofBytes b!" \n-120, 5") = .ok r :=
  (C128_exactly_partial env cfg conv k old _).mpr
    ⟨b!" \n", b!"-", b!"120", b!", 5", rfl, by simp [Blank], by simp [Digit128], .inl ⟨.inr rfl, by decide⟩, by rintro ⟨⟩, by rintro c r ⟨rfl, -⟩; simp [Digit128]⟩

/-- A number with a fraction and one with a leading zero: not taken. -/
example (env : Env) (cfg : Cfg) (conv : Bool) (old : Val) : (∀ r, jsonStreamImport env cfg conv Samples.int32 old (IStr.ofBytes b!"1.5") ≠ .ok r) ∧
    ∀ r, jsonStreamImport env cfg conv Samples.int32 old (IStr.ofBytes b!"01") ≠ .ok r := by
  have no : ∀ t : Bytes, (∀ c r, t = c :: r → isSpace c = false) → ¬ ((∀ d r, t = 0x30 :: d :: r → isDigit d = false ∨ d = 0x30) ∧ taken true t ≠ 0 ∧
      ∀ e r, t.drop (taken true t) = e :: r → e ≠ 0x2E ∧ e ≠ 0x65 ∧ e ≠ 0x45) → ∀ r, jsonStreamImport env cfg conv Samples.int32 old (IStr.ofBytes t) ≠ .ok r := by
    intro t hsp hn r h
    have ht := (C128_exactly_partial env cfg conv ⟨32, true⟩ old t).mp ⟨r, h⟩
    obtain ⟨s, ds, rest, e, b1, b2, b3, b4, -⟩ := taken_head (w := []) ht (by simp) hsp
    obtain ⟨c1, c2⟩ := taken_shape b1 (fun c r h => (b4 c r h).1) b2
    apply hn
    rw [show taken true t = (s ++ ds).length from by rw [e, c1]]
    refine ⟨?_, ?_, ?_⟩
    · intro d r' hx
      rw [e] at hx
      rcases b2 with ⟨rfl | rfl, h⟩ | h
      · cases ds with
        | nil => exact absurd rfl h
        | cons a ds =>
          cases ds with
          | nil =>
            simp only [List.nil_append, List.cons_append, List.cons.injEq] at hx
            exact .inl (b4 d r' hx.2).1
          | cons b ds =>
            simp only [List.nil_append, List.cons_append, List.cons.injEq] at hx
            obtain ⟨rfl, rfl, -⟩ := hx
            exact .inr (b3 rfl b ds rfl)
      · cases hx
      · simp only [LoneSign, if_true] at h
        rcases h with rfl | rfl | rfl <;> cases hx
    · intro h0
      exact c2 (List.eq_nil_of_length_eq_zero h0)
    · intro x r' hx
      rw [e, List.drop_left] at hx
      exact (b4 x r' hx).2
  refine ⟨no _ (by rintro c r ⟨rfl, -⟩; decide) ?_, no _ (by rintro c r ⟨rfl, -⟩; decide) ?_⟩
  · rintro ⟨-, -, h⟩
    exact (h 0x2E b!"5" (by decide)).1 rfl
  · rintro ⟨h, -⟩
    exact absurd (h 0x31 [] rfl) (by decide)

/-- C128 is false. From a stream `--5` is read as 5, `-+5` as -5, `+5` as 5 and `--` as 0 into an `int`, and `-` as 0 into an
`unsigned int`. None of these texts begins with an integer, and from a string all of them are refused. -/
theorem C128_false (env : Env) (cfg : Cfg) (conv : Bool) (old : Val) :
    (∀ t ∈ [b!"--5", b!"-+5", b!"+5", b!"--", b!"-"], ¬ BeginsWithInteger t) ∧
    (∃ i, jsonStreamImport env cfg conv (.int ⟨32, true⟩) old (IStr.ofBytes b!"--5") = .ok (.int 5, i)) ∧
    (∃ i, jsonStreamImport env cfg conv (.int ⟨32, true⟩) old (IStr.ofBytes b!"-+5") = .ok (.int (-5), i)) ∧
    (∃ i, jsonStreamImport env cfg conv (.int ⟨32, true⟩) old (IStr.ofBytes b!"+5") = .ok (.int 5, i)) ∧
    (∃ i, jsonStreamImport env cfg conv (.int ⟨32, true⟩) old (IStr.ofBytes b!"--") = .ok (.int 0, i)) ∧
    (∃ i, jsonStreamImport env cfg conv (.int ⟨32, false⟩) old (IStr.ofBytes b!"-") = .ok (.int 0, i)) ∧
    (∀ t ∈ [b!"--5", b!"-+5", b!"+5", b!"--"], jsonImport env cfg conv (.int ⟨32, true⟩) old t = throwStd) ∧
    jsonImport env cfg conv (.int ⟨32, false⟩) old b!"-" = throwStd := by
  have stm : ∀ (k : IntKind) (t : Bytes) (l : LexerS) (v : Int),
      (PI.init (⟨(JsonS.ofStream (IStr.ofBytes t) conv).lex, ⟨.Done, .Init, [], true⟩⟩ : JsonS)).getToken JsonS.ops = .ok (.Value, PI.init ⟨l, ⟨.Done, .Done, [], true⟩⟩) →
      (∃ l', l.scanInt k = .ok (v, l')) → ∃ i, jsonStreamImport env cfg conv (.int k) old (IStr.ofBytes t) = .ok (.int v, i) := by
    rintro k t l v h ⟨l', h'⟩
    rw [import_int_value env cfg conv k old t h, h']
    exact ⟨_, rfl⟩
  have str : ∀ (k : IntKind) (t : Bytes) (l : Lexer),
      (PI.init (⟨(JsonP.ofBytes t conv).lex, ⟨.Done, .Init, [], true⟩⟩ : JsonP)).getToken JsonP.ops = .ok (.Value, PI.init ⟨l, ⟨.Done, .Done, [], true⟩⟩) →
      l.scanInt k = throwStd → jsonImport env cfg conv (.int k) old t = throwStd := by
    intro k t l h h'
    unfold jsonImport importValue
    rw [show (PI.init (JsonP.ofBytes t conv)).getToken JsonP.ops = .ok (.DocStart, PI.init ⟨(JsonP.ofBytes t conv).lex, ⟨.Done, .Init, [], true⟩⟩) from rfl]
    simp only [Res.ok_bind, ne_eq, not_true_eq_false, if_false]
    rw [deser, h]
    simp only [Res.ok_bind, ne_eq, not_true_eq_false, if_false]
    rw [show JsonP.ops.getInt k (PI.init (⟨l, ⟨.Done, .Done, [], true⟩⟩ : JsonP)).inner =
      (do let (v, l) ← l.scanInt k; return (v, (⟨l, ⟨.Done, .Done, [], true⟩⟩ : JsonP)) : Res (Int × JsonP)) from rfl, h']
    rfl
  refine ⟨?_, stm _ _ ⟨⟨b!"--5", 0, false, false, true⟩, [], some .number, false, false, conv⟩ _ rfl
      ⟨⟨⟨b!"--5", 3, true, false, true⟩, [], some .number, false, false, conv⟩, by cases conv <;> decide +kernel⟩,
    stm _ _ ⟨⟨b!"-+5", 0, false, false, true⟩, [], some .number, false, false, conv⟩ _ rfl
      ⟨⟨⟨b!"-+5", 3, true, false, true⟩, [], some .number, false, false, conv⟩, by cases conv <;> decide +kernel⟩,
    stm _ _ ⟨⟨b!"+5", 0, false, false, true⟩, [], some .number, false, false, conv⟩ _ rfl
      ⟨⟨⟨b!"+5", 2, true, false, true⟩, [], some .number, false, false, conv⟩, by cases conv <;> decide +kernel⟩,
    stm _ _ ⟨⟨b!"--", 0, false, false, true⟩, [], some .number, false, false, conv⟩ _ rfl
      ⟨⟨⟨b!"--", 2, true, false, true⟩, [], some .number, false, false, conv⟩, by cases conv <;> decide +kernel⟩,
    stm _ _ ⟨⟨b!"-", 0, false, false, true⟩, [], some .number, false, false, conv⟩ _ rfl
      ⟨⟨⟨b!"-", 1, true, false, true⟩, [], some .number, false, false, conv⟩, by cases conv <;> decide +kernel⟩, ?_, ?_⟩
  · intro t ht h
    obtain ⟨w, s, ds, rest, e, h1, h2, h3, h4, -⟩ := h
    cases w with
    | cons x w =>
      have hx := h1 x (by simp)
      simp only [List.mem_cons, List.not_mem_nil, or_false] at ht
      rcases ht with rfl | rfl | rfl | rfl | rfl <;> (have e1 := (List.cons.inj e).1; subst e1; simp [Blank] at hx)
    | nil =>
      cases ds with
      | nil => exact h3 rfl
      | cons d ds =>
        have hd := h4 d (by simp)
        simp only [List.mem_cons, List.not_mem_nil, or_false] at ht
        rcases h2 with rfl | rfl <;> rcases ht with rfl | rfl | rfl | rfl | rfl <;>
          simp only [List.nil_append, List.cons_append, List.append_assoc, List.cons.injEq, reduceCtorEq, and_false] at e <;>
          first
          | (have e1 := e.1; subst e1; simp [Digit128] at hd; done)
          | (have e1 := e.2.1; subst e1; simp [Digit128] at hd; done)
          | simp at e
  · intro t ht
    simp only [List.mem_cons, List.not_mem_nil, or_false] at ht
    rcases ht with rfl | rfl | rfl | rfl
    all_goals exact str _ _ _ rfl rfl
  · exact str _ _ _ rfl rfl

end Thors.Props
