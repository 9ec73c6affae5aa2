import Verif.Model.JsonStream
import Verif.Proofs.JsonEnds
/-
The JSON parser on a stream: its functions end without undefined behaviour, and each takes something from the stream.
-/
namespace Thors
open Spec StrIn

namespace SEnds
open JEnds (w scalarLexeme feed_some feed_started)

/-- The stream goes on, within its text. -/
structure Fwd (i i' : IStr) : Prop where
  data : i'.data = i.data
  pos : i.pos ≤ i'.pos
  inside : i'.pos ≤ i.data.length

/-- It takes something. -/
structure More (i i' : IStr) : Prop where
  fwd : Fwd i i'
  more : i.pos < i'.pos

theorem Fwd.trans {i i' i'' : IStr} (h : Fwd i i') (h' : Fwd i' i'') : Fwd i i'' :=
  ⟨h'.data.trans h.data, Nat.le_trans h.pos h'.pos, h.data ▸ h'.inside⟩

theorem More.trans {i i' i'' : IStr} (h : More i i') (h' : Fwd i' i'') : More i i'' := ⟨h.fwd.trans h', Nat.lt_of_lt_of_le h.more h'.pos⟩
theorem Fwd.more {i i' i'' : IStr} (h : Fwd i i') (h' : More i' i'') : More i i'' := ⟨h.trans h'.fwd, Nat.lt_of_le_of_lt h.pos h'.more⟩

/-- Inside the text. -/
def In (i : IStr) : Prop := i.pos ≤ i.data.length

theorem Fwd.in_ {i i' : IStr} (h : Fwd i i') : In i' := by unfold In; rw [h.data]; exact h.inside
theorem Fwd.refl {i : IStr} (h : In i) : Fwd i i := ⟨rfl, Nat.le_refl _, h⟩

/-! ### the functions of the stream -/

theorem fwd_get {i : IStr} (h : In i) : Fwd i i.get.2 := by
  unfold In at h
  unfold IStr.get
  split
  · exact ⟨rfl, Nat.le_refl _, h⟩
  · split
    · exact ⟨rfl, Nat.le_succ _, by dsimp only; omega⟩
    · exact ⟨rfl, Nat.le_refl _, h⟩

theorem more_get {i : IStr} (h : In i) (hn : i.get.1 ≠ EOFv) : More i i.get.2 := by
  refine ⟨fwd_get h, ?_⟩
  unfold IStr.get at hn ⊢
  split
  · next hg => rw [if_pos hg] at hn; exact absurd rfl hn
  · next hg =>
    rw [if_neg hg] at hn
    split
    · exact Nat.lt_succ_self _
    · next hp => rw [if_neg hp] at hn; exact absurd rfl hn

theorem fwd_peek {i : IStr} (h : In i) : Fwd i i.peek.2 := by
  unfold IStr.peek
  split
  · exact ⟨rfl, Nat.le_refl _, h⟩
  · split <;> exact ⟨rfl, Nat.le_refl _, h⟩

theorem peek_pos (i : IStr) : i.peek.2.pos = i.pos := by
  unfold IStr.peek
  split
  · rfl
  · split <;> rfl

theorem fwd_tellg {i : IStr} (h : In i) : Fwd i i.tellg.2 := by
  unfold IStr.tellg
  split
  · exact ⟨rfl, Nat.le_refl _, h⟩
  · split <;> exact ⟨rfl, Nat.le_refl _, h⟩

theorem tellg_pos (i : IStr) : i.tellg.2.pos = i.pos ∧ i.tellg.2.data = i.data := by
  unfold IStr.tellg
  split
  · exact ⟨rfl, rfl⟩
  · split <;> exact ⟨rfl, rfl⟩

theorem fwd_ignore {i : IStr} (h : In i) (n : Nat) : Fwd i (i.ignore n) := by
  unfold In at h
  unfold IStr.ignore
  split
  · exact ⟨rfl, Nat.le_refl _, h⟩
  · split
    · next hn => exact ⟨rfl, Nat.le_add_right _ _, hn⟩
    · exact ⟨rfl, h, Nat.le_refl _⟩

theorem more_ignore {i : IStr} (n : Nat) (hn : n ≠ 0) (hg : i.good = true) (hp : i.pos < i.data.length) : More i (i.ignore n) := by
  refine ⟨fwd_ignore (Nat.le_of_lt hp) n, ?_⟩
  unfold IStr.ignore
  rw [if_neg (by simp [hg])]
  split
  · dsimp only; omega
  · exact hp

theorem more_read {i : IStr} (n : Nat) (hn : n ≠ 0) (hg : i.good = true) (hp : i.pos < i.data.length) : More i (i.read n).2.2 := by
  unfold IStr.read
  rw [if_neg (by simp [hg])]
  dsimp only
  split
  · next hl =>
    simp only [List.length_take, List.length_drop] at hl
    refine ⟨⟨rfl, Nat.le_add_right _ _, ?_⟩, ?_⟩ <;> dsimp only <;> omega
  · exact ⟨⟨rfl, Nat.le_of_lt hp, Nat.le_refl _⟩, hp⟩

theorem upTo_le (d : Byte) : ∀ t : Bytes, upTo d t ≤ t.length
  | [] => Nat.le_refl _
  | c :: t => by
    simp only [upTo, List.length_cons]
    have := upTo_le d t
    split <;> omega

theorem fwd_getline {i : IStr} (h : In i) (d : Byte) : Fwd i (i.getline d).2.2 := by
  have hu := upTo_le d (i.data.drop i.pos)
  simp only [List.length_drop] at hu
  unfold In at h
  unfold IStr.getline
  split
  · exact ⟨rfl, Nat.le_refl _, h⟩
  · dsimp only
    split
    · next hl => exact ⟨rfl, Nat.le_add_right _ _, by dsimp only; omega⟩
    · split
      · exact ⟨rfl, h, Nat.le_refl _⟩
      · exact ⟨rfl, h, Nat.le_refl _⟩

theorem spaces_le : ∀ t : Bytes, spaces t ≤ t.length
  | [] => Nat.le_refl _
  | c :: t => by
    simp only [spaces, List.length_cons]
    have := spaces_le t
    split <;> omega

/-! ### numbers -/

theorem digitPrefix_le (t : Bytes) : (digitPrefix t).length ≤ t.length := by
  unfold digitPrefix
  induction t with
  | nil => simp
  | cons c t ih => simp only [List.takeWhile_cons, List.length_cons]; split <;> simp only [List.length_cons, List.length_nil] <;> omega

theorem numGet_le (bits : Nat) (t : Bytes) : (IStr.numGet bits t).len ≤ t.length := by
  unfold IStr.numGet
  dsimp only
  cases t with
  | nil => simp [digitPrefix]
  | cons c t =>
    split
    · have := digitPrefix_le t
      simp only [List.drop_succ_cons, List.drop_zero, List.length_cons]
      omega
    · have := digitPrefix_le (c :: t)
      omega

theorem extractFlt_le : ∀ (n : Nat) (dec sci mant : Bool) (t : Bytes), t.length ≤ n → (IStr.extractFlt dec sci mant t).1 ≤ t.length
  | _, _, _, _, [], _ => by simp [IStr.extractFlt]
  | 0, _, _, _, c :: cs, h => by simp at h
  | n + 1, dec, sci, mant, c :: cs, h => by
    simp only [List.length_cons] at h
    unfold IStr.extractFlt
    split
    · have := extractFlt_le n dec sci true cs (by omega)
      simp only [List.length_cons]; omega
    split
    · have := extractFlt_le n true sci mant cs (by omega)
      simp only [List.length_cons]; omega
    split
    · cases cs with
      | nil => simp
      | cons s ds =>
        simp only [List.length_cons] at h
        dsimp only
        split
        · have := extractFlt_le n dec true mant ds (by omega)
          simp only [List.length_cons]; omega
        · have := extractFlt_le n dec true mant (s :: ds) (by simp only [List.length_cons]; omega)
          simp only [List.length_cons] at this ⊢; omega
    · simp

theorem numGetFlt_le (f : FKind) (t : Bytes) : (IStr.numGetFlt f t).1 ≤ t.length := by
  unfold IStr.numGetFlt
  dsimp only
  cases t with
  | nil => simp [IStr.extractFlt]
  | cons c t =>
    split
    · have := extractFlt_le _ false false false t (Nat.le_refl _)
      simp only [List.drop_succ_cons, List.drop_zero, List.length_cons]
      omega
    · have := extractFlt_le _ false false false (c :: t) (Nat.le_refl _)
      omega

theorem tellg_moves {i : IStr} {n : Nat} (h : (i.tellg.1 != ({ i.tellg.2 with pos := i.tellg.2.pos + n } : IStr).tellg.1) = true) : 0 < n := by
  apply Nat.pos_of_ne_zero
  rintro rfl
  have hi : ({ i.tellg.2 with pos := i.tellg.2.pos + 0 } : IStr) = i.tellg.2 := rfl
  rw [hi] at h
  have : i.tellg.2.tellg.1 = i.tellg.1 := by
    unfold IStr.tellg
    split
    · simp [IStr.good]
    · next hg =>
      split
      · dsimp only
      · dsimp only
  rw [this] at h
  simp at h

/-- Reading digits behind the position: success is a change of position. -/
theorem moved {i : IStr} (hi : In i) {n : Nat} (hn : n ≤ (i.tellg.2.data.drop i.tellg.2.pos).length) :
    Fwd i ({ i.tellg.2 with pos := i.tellg.2.pos + n } : IStr).tellg.2 ∧
    ((i.tellg.1 != ({ i.tellg.2 with pos := i.tellg.2.pos + n } : IStr).tellg.1) = true →
      More i ({ i.tellg.2 with pos := i.tellg.2.pos + n } : IStr).tellg.2) := by
  obtain ⟨h1, h2⟩ := tellg_pos i
  obtain ⟨h3, h4⟩ := tellg_pos ({ i.tellg.2 with pos := i.tellg.2.pos + n } : IStr)
  rw [List.length_drop, h1, h2] at hn
  unfold In at hi
  have hf : Fwd i ({ i.tellg.2 with pos := i.tellg.2.pos + n } : IStr).tellg.2 :=
    ⟨h4.trans h2, by rw [h3]; dsimp only; rw [h1]; exact Nat.le_add_right _ _, by rw [h3]; dsimp only; rw [h1]; omega⟩
  refine ⟨hf, fun h => ⟨hf, ?_⟩⟩
  have := tellg_moves h
  rw [h3]
  dsimp only
  rw [h1]
  omega

theorem readUnsigned_fwd {i : IStr} (hi : In i) (b : Nat) : Fwd i (i.readUnsigned b).2 ∧ ((i.readUnsigned b).1.1 = true → More i (i.readUnsigned b).2) :=
  moved hi (numGet_le b _)

theorem readFlt_fwd {i : IStr} (hi : In i) (f : FKind) : Fwd i (i.readFlt f).2 ∧ ((i.readFlt f).1.1 = true → More i (i.readFlt f).2) :=
  moved hi (numGetFlt_le f _)

theorem readInt_fwd {i : IStr} (hi : In i) (k : IntKind) : Fwd i (i.readInt k).2 ∧ ((i.readInt k).1.1 = true → More i (i.readInt k).2) := by
  unfold IStr.readInt
  split
  · have hp := fwd_peek hi
    generalize i.peek = q at hp
    obtain ⟨c, j⟩ := q
    dsimp only at hp ⊢
    have hj : Fwd j (if (c == 0x2D) = true then j.get.2 else j) := by
      split
      · exact fwd_get hp.in_
      · exact .refl hp.in_
    generalize (if (c == 0x2D) = true then j.get.2 else j) = j' at hj
    have := readUnsigned_fwd hj.in_ k.bits
    exact ⟨(hp.trans hj).trans this.1, fun h => (hp.trans hj).more (this.2 h)⟩
  · exact readUnsigned_fwd hi k.bits

theorem checkZero_fwd {i : IStr} (hi : In i) : Safe (Fwd i) i.checkZero := by
  unfold IStr.checkZero
  have hp := fwd_peek hi
  have hpp := peek_pos i
  generalize i.peek = q at hp hpp
  obtain ⟨c, j⟩ := q
  dsimp only at hp hpp ⊢
  split
  · next hc =>
    split
    · exact .throwStd
    · refine .ok ?_
      have hg := fwd_get hp.in_
      have hk := fwd_peek hg.in_
      have h := (hp.trans hg).trans hk
      by_cases hn : j.get.1 = EOFv
      · -- nothing was taken: the stream is not good, or at its end
        have hf : j.get.2.fail = true := by
          unfold IStr.get at hn ⊢
          split
          · rfl
          · next h1 =>
            rw [if_neg h1] at hn
            split
            · next h2 =>
              rw [if_pos h2] at hn
              dsimp only at hn
              unfold EOFv at hn
              omega
            · rfl
        have hf2 : j.get.2.peek.2.fail = true := by
          generalize j.get.2 = x at hf
          unfold IStr.peek
          rw [if_pos (by simp [IStr.good, hf])]
        unfold IStr.unget
        rw [if_pos hf2]
        exact ⟨h.data, h.pos, h.inside⟩
      · have hm := (hp.more (more_get hp.in_ hn)).trans hk
        unfold IStr.unget
        split
        · exact ⟨h.data, h.pos, h.inside⟩
        · split
          · exact ⟨h.data, h.pos, h.inside⟩
          · refine ⟨h.data, ?_, ?_⟩
            · have := hm.more; dsimp only; omega
            · have := h.inside; dsimp only; omega
  · exact .ok hp

theorem readIntValue_more {i : IStr} (hi : In i) (k : IntKind) :
    Safe (fun x => x.1.1 = true → More i x.2) (i.readIntValue k) := by
  unfold IStr.readIntValue
  refine (checkZero_fwd hi).bind ?_
  intro j hj
  have := readInt_fwd hj.in_ k
  generalize j.readInt k = q at this
  obtain ⟨⟨ok, v⟩, j'⟩ := q
  dsimp only at this ⊢
  refine .ok ?_
  unfold IStr.validateResult
  dsimp only
  intro h
  have hok : ok = true := by simp at h; exact h.1.1.1
  exact (hj.more (this.2 hok)).trans (fwd_peek this.1.in_)

theorem readFltValue_more {i : IStr} (hi : In i) (f : FKind) :
    Safe (fun x => x.1.1 = true → More i x.2) (i.readFltValue f) := by
  unfold IStr.readFltValue
  refine (checkZero_fwd hi).bind ?_
  intro j hj
  have := readFlt_fwd hj.in_ f
  exact .ok fun h => hj.more (this.2 h)

/-! ### skipping -/

/-- After `get`: what it took is behind the position `p`. -/
structure Got (d : Bytes) (p : Nat) (next : Int) (i : IStr) : Prop where
  data : i.data = d
  pos : p ≤ i.pos
  inside : i.pos ≤ d.length
  got : next ≠ EOFv → p + 1 ≤ i.pos

theorem got_get {d : Bytes} {p : Nat} {i : IStr} (hd : i.data = d) (hi : In i) (hp : p ≤ i.pos) : Got d p i.get.1 i.get.2 := by
  have h := fwd_get hi
  refine ⟨h.data.trans hd, Nat.le_trans hp h.pos, hd ▸ h.inside, fun hn => ?_⟩
  have := (more_get hi hn).more
  omega

theorem Got.in_ {d : Bytes} {p : Nat} {next : Int} {i : IStr} (h : Got d p next i) : In i := by
  unfold In; rw [h.data]; exact h.inside

theorem Got.get {d : Bytes} {p : Nat} {next : Int} {i : IStr} (h : Got d p next i) : Got d p i.get.1 i.get.2 := got_get h.data h.in_ h.pos

/-- A `char` that is not `EOF` comes from one that is not. -/
theorem Got.char {d : Bytes} {p : Nat} {next : Int} {i : IStr} (h : Got d p next i) : Got d p (sext (toChar next)) i :=
  ⟨h.data, h.pos, h.inside, fun hn => h.got (by rintro rfl; exact hn (by decide))⟩

theorem got_digitLoop {d : Bytes} {p : Nat} : ∀ (fuel : Nat) (i : IStr) (next : Int) (buf : Bytes), Got d p next i → 1 ≤ fuel →
    (Lexer.isDigitI next = true → d.length - i.pos + 2 ≤ fuel) →
    Safe (fun x => Got d (if Lexer.isDigitI next then p + 1 else p) x.1 x.2.2) (LexerS.digitLoop fuel i next buf)
  | 0, _, _, _, _, h, _ => by omega
  | fuel + 1, i, next, buf, hg, _, hf => by
    unfold LexerS.digitLoop
    split
    · next hd =>
      have hne : next ≠ EOFv := by rintro rfl; exact absurd hd (by decide)
      have hf := hf hd
      have hp := hg.got hne
      have g : Got d (p + 1) (sext (toChar i.get.1)) i.get.2 := (got_get hg.data hg.in_ hp).char
      dsimp only
      refine (got_digitLoop fuel i.get.2 _ _ g (by omega) ?_).mono ?_
      · intro hd2
        have hn : i.get.1 ≠ EOFv := by intro e; rw [e] at hd2; exact absurd hd2 (by decide)
        have := (more_get hg.in_ hn).more
        have := (fwd_get hg.in_).inside
        rw [hg.data] at this
        omega
      · intro x hx
        refine ⟨hx.data, ?_, hx.inside, fun hn => ?_⟩
        · have := hx.pos; split at this <;> omega
        · have := hx.got hn; split at this <;> omega
    · exact .ok hg

theorem got_readDigits {d : Bytes} {p : Nat} {i : IStr} {next : Int} (buf : Bytes) (h : Got d p next i) :
    Safe (fun x => Got d (p + 1) x.1 x.2.2) (LexerS.readDigits i next buf) := by
  unfold LexerS.readDigits
  split
  · exact .throwStd
  · next hd =>
    have hd : Lexer.isDigitI (sext (toChar next)) = true := by simpa using hd
    refine (got_digitLoop _ _ _ _ h.char (by omega) (fun _ => by rw [h.data]; omega)).mono ?_
    intro x hx
    rw [if_pos hd] at hx
    exact hx

theorem Got.weak {d : Bytes} {p : Nat} {next : Int} {i : IStr} (h : Got d (p + 1) next i) : Got d p next i :=
  ⟨h.data, by have := h.pos; omega, h.inside, fun hn => by have := h.got hn; omega⟩

theorem readNumber_more {i : IStr} (hi : In i) : Safe (fun x => More i x.2) (LexerS.readNumber i) := by
  unfold LexerS.readNumber
  have g0 : Got i.data i.pos i.get.1 i.get.2 := got_get rfl hi (Nat.le_refl _)
  generalize i.get = g at g0
  obtain ⟨n, s0⟩ := g
  dsimp only at g0 ⊢
  refine Safe.bind (P := fun (x : Int × Bytes × IStr) => Got i.data i.pos x.1 x.2.2) ?_ ?_
  · split
    · split
      · exact .throwStd
      · exact .ok g0.get
    · exact .ok g0
  rintro ⟨n, b, s0⟩ g0
  dsimp only at g0 ⊢
  refine Safe.bind (P := fun (x : Int × Bytes × IStr) => Got i.data (i.pos + 1) x.1 x.2.2) ?_ ?_
  · split
    · next hn => exact .ok (got_get g0.data g0.in_ (g0.got (by rw [hn]; decide)))
    · exact got_readDigits _ g0
  clear g0
  rintro ⟨n, b, s0⟩ g0
  dsimp only at g0 ⊢
  refine Safe.bind (P := fun (x : Int × Bytes × IStr) => Got i.data (i.pos + 1) x.1 x.2.2) ?_ ?_
  · split
    · split
      · exact .throwStd
      · exact (got_readDigits _ g0.get).mono fun _ h => h.weak
    · exact .ok g0
  clear g0
  rintro ⟨n, b, s0⟩ g0
  dsimp only at g0 ⊢
  refine Safe.bind (P := fun (x : Int × Bytes × IStr) => Got i.data (i.pos + 1) x.1 x.2.2) ?_ ?_
  · split
    · split
      · exact .throwStd
      split
      · split
        · exact .throwStd
        · exact (got_readDigits _ g0.get.get).mono fun _ h => h.weak
      · exact (got_readDigits _ g0.get).mono fun _ h => h.weak
    · exact .ok g0
  clear g0
  rintro ⟨n, b, s0⟩ g0
  dsimp only at g0 ⊢
  have hpos := g0.pos
  have hdat := g0.data
  have hins := g0.inside
  split
  · next hn =>
    refine .ok ?_
    have := g0.got hn
    unfold IStr.unget
    split
    · exact ⟨⟨hdat, by dsimp only; omega, hins⟩, by dsimp only; omega⟩
    · split
      · exact ⟨⟨hdat, by dsimp only; omega, hins⟩, by dsimp only; omega⟩
      · exact ⟨⟨hdat, by dsimp only; omega, by dsimp only; omega⟩, by dsimp only; omega⟩
  · exact .ok ⟨⟨hdat, by dsimp only; omega, hins⟩, by dsimp only; omega⟩

theorem scanQuote_fwd (ctl : Bool) : ∀ (fuel : Nat) (i : IStr) (last : Byte) (acc : Bytes), In i → i.data.length - i.pos + 1 ≤ fuel →
    Safe (fun x => Fwd i x.2) (LexerS.scanQuote ctl fuel i last acc)
  | 0, _, _, _, _, h => by omega
  | fuel + 1, i, last, acc, hi, hf => by
    unfold LexerS.scanQuote
    have hg := fwd_get hi
    have hm := more_get hi
    generalize i.get = q at hg hm
    obtain ⟨n, j⟩ := q
    dsimp only at hg hm ⊢
    split
    · next hn =>
      split
      · exact .throwStd
      · have h1 := (hm hn.1).more
        have h2 := hg.inside
        exact (scanQuote_fwd ctl fuel j _ _ hg.in_ (by rw [hg.data]; omega)).mono fun _ h => hg.trans h
    · split
      · exact .throwStd
      · exact .ok hg

theorem skipString_more {i : IStr} (ctl : Bool) (hg : i.good = true) (hp : i.pos < i.data.length) (last : Byte) :
    Safe (fun x => More i x.2) (LexerS.scanQuote ctl (i.get.2.data.length + 1) i.get.2 last []) := by
  have hi : In i := Nat.le_of_lt hp
  have hn : i.get.1 ≠ EOFv := by
    unfold IStr.get
    rw [if_neg (by simp [hg]), if_pos hp]
    dsimp only
    unfold EOFv
    omega
  exact (scanQuote_fwd ctl _ _ _ _ (fwd_get hi).in_ (by omega)).mono fun _ h => (more_get hi hn).trans h

/-! ### strings -/

/-- The text does not break off behind a backslash. -/
def Whole (i : IStr) : Prop := i.data.getLast? ≠ some 0x5C

theorem checkEscape_last {t : Bytes} (h : checkEscape t = true) : t.getLast? = some 0x5C := by
  unfold checkEscape at h
  rw [List.getLast?_eq_head?_reverse]
  generalize t.reverse = r at h ⊢
  cases r with
  | nil => simp at h
  | cons c r =>
    simp only [List.takeWhile_cons] at h
    split at h
    · next hc => simp only [decide_eq_true_eq] at hc; rw [hc]; rfl
    · simp at h

/-- A piece of a string that ends in a backslash was ended by a quote, and the stream is as good as before. -/
theorem getline_escape {i : IStr} (hi : In i) (hw : Whole i) (hg : i.good = true) (old : Bytes)
    (hc : checkEscape ((i.getline 0x22).1.getD old) = true) : (i.getline 0x22).2.2.good = true ∧ More i (i.getline 0x22).2.2 := by
  have hf := fwd_getline hi 0x22
  unfold In at hi
  have hu := upTo_le 0x22 (i.data.drop i.pos)
  simp only [List.length_drop] at hu
  unfold IStr.getline at hc hf ⊢
  rw [if_neg (by simp [hg])] at hc hf ⊢
  dsimp only at hc hf ⊢
  split
  · refine ⟨by simpa [IStr.good] using hg, ⟨?_, ?_⟩⟩
    · next hl => rw [if_pos hl] at hf; exact hf
    · dsimp only; omega
  · next hl =>
    rw [if_neg hl] at hc
    exfalso
    split at hc
    · have : checkEscape [] = true := hc
      exact absurd this (by decide)
    · next hz =>
      simp only [Option.getD_some] at hc
      have := checkEscape_last hc
      rw [List.take_of_length_le (by simp only [List.length_drop]; omega)] at this
      apply hw
      rw [← this, List.getLast?_drop, if_neg (by omega)]

theorem readMore_fwd : ∀ (fuel : Nat) (i : IStr) (tmp value : Bytes), In i → Whole i → i.good = true → i.data.length - i.pos + 1 ≤ fuel →
    Safe (fun x => Fwd i x.2) (LexerS.readMore fuel i tmp value)
  | 0, _, _, _, _, _, _, h => by omega
  | fuel + 1, i, tmp, value, hi, hw, hg, hf => by
    unfold LexerS.readMore
    have h1 := fwd_getline hi 0x22
    have h2 := getline_escape hi hw hg tmp
    generalize i.getline 0x22 = q at h1 h2
    obtain ⟨new, b, j⟩ := q
    dsimp only at h1 h2 ⊢
    split
    · next hc =>
      obtain ⟨h3, h4⟩ := h2 hc.2
      have h5 := h4.more
      have h6 := h1.inside
      refine (readMore_fwd fuel j _ _ h1.in_ ?_ h3 (by rw [h1.data]; omega)).mono fun _ h => h1.trans h
      unfold Whole
      rw [h1.data]
      exact hw
    · exact .ok h1

theorem getStringInto_more {l : LexerS} (hi : In l.inp) (hw : Whole l.inp) :
    Safe (fun x => More l.inp x.2.inp ∧ x.2.lastToken = l.lastToken ∧ x.2.lastNull = l.lastNull) l.getStringInto := by
  unfold LexerS.getStringInto
  have hm := more_get hi
  have hgood : l.inp.get.1 ≠ EOFv → l.inp.get.2.good = true := by
    unfold IStr.get
    split
    · exact fun h => absurd rfl h
    · next hg =>
      split
      · exact fun _ => by simpa [IStr.good] using hg
      · exact fun h => absurd rfl h
  generalize l.inp.get = q at hm hgood
  obtain ⟨n, j⟩ := q
  dsimp only at hm hgood ⊢
  split
  · exact .throwStd
  next hq =>
  have hn : n ≠ EOFv := by
    rintro rfl
    exact hq (by decide)
  have hm := hm hn
  have hgood := hgood hn
  have hwj : Whole j := by unfold Whole; rw [hm.fwd.data]; exact hw
  have h1 := fwd_getline hm.fwd.in_ 0x22
  have h2 := getline_escape hm.fwd.in_ hwj hgood []
  generalize j.getline 0x22 = q at h1 h2
  obtain ⟨new, b, j'⟩ := q
  dsimp only at h1 h2 ⊢
  refine Safe.bind (P := fun x => Fwd j x.2) ?_ ?_
  · split
    · next hc =>
      obtain ⟨h3, h4⟩ := h2 hc.2
      refine (readMore_fwd _ j' _ _ h1.in_ ?_ h3 (by omega)).mono fun _ h => h1.trans h
      unfold Whole
      rw [h1.data]
      exact hwj
    · exact .ok h1
  · rintro ⟨v, j2⟩ hj
    dsimp only at hj ⊢
    refine Safe.bind (P := fun _ => True) ?_ fun _ _ => .ok ⟨hm.trans hj, rfl, rfl⟩
    split
    · exact Safe.of (fun _ _ => trivial) (unescapeInPlace_ne_ub _)
    · exact .ok trivial

/-! ### the lexer -/

/-- A scalar of the document starts at the position; or something that is taken for a number. -/
def AtScalar (l : LexerS) : Prop :=
  l.lastToken = some .number ∨
  ((l.lastToken = some .true_ ∨ l.lastToken = some .false_ ∨ l.lastToken = some .null_ ∨ l.lastToken = some .string) ∧
    l.inp.good = true ∧ l.inp.pos < l.inp.data.length)

theorem checkFixed_more {l : LexerS} (c : Bytes) (hc : c ≠ []) (hg : l.inp.good = true) (hp : l.inp.pos < l.inp.data.length) :
    Safe (fun x => More l.inp x.inp ∧ x.lastToken = l.lastToken ∧ x.lastNull = l.lastNull) (l.checkFixed c) := by
  unfold LexerS.checkFixed
  dsimp only
  split
  · exact .ok ⟨more_read _ (by simpa using hc) hg hp, rfl, rfl⟩
  · exact .throwStd

theorem getLastBool_more {l : LexerS} (ha : AtScalar l) :
    Safe (fun x => More l.inp x.2.inp ∧ x.2.lastToken = l.lastToken ∧ x.2.lastNull = l.lastNull) l.getLastBool := by
  unfold LexerS.getLastBool
  rcases ha with h | ⟨h | h | h | h, hg, hp⟩ <;> rw [h] <;> dsimp only
  · exact .throwStd
  · exact (checkFixed_more _ (by decide) hg hp).bind fun x hx => .ok (h ▸ hx)
  · exact (checkFixed_more _ (by decide) hg hp).bind fun x hx => .ok (h ▸ hx)
  · exact .throwStd
  · exact .throwStd

theorem ignoreRaw_more {l : LexerS} (hi : In l.inp) (ha : AtScalar l) :
    Safe (fun x => More l.inp x.inp ∧ x.lastToken = l.lastToken ∧ x.lastNull = l.lastNull) l.ignoreRawValue := by
  unfold LexerS.ignoreRawValue
  rcases ha with h | ⟨h | h | h | h, hg, hp⟩ <;> rw [h] <;> dsimp only
  · exact (readNumber_more hi).bind fun x hx => .ok ⟨hx, h.symm ▸ rfl, rfl⟩
  · exact .ok ⟨more_ignore 4 (by decide) hg hp, rfl, rfl⟩
  · exact .ok ⟨more_ignore 5 (by decide) hg hp, rfl, rfl⟩
  · exact .ok ⟨more_ignore 4 (by decide) hg hp, rfl, rfl⟩
  · exact (skipString_more false hg hp _).bind fun x hx => .ok ⟨hx, rfl, rfl⟩

theorem ignoreRaw_safe {l : LexerS} (hi : In l.inp) (h : l.lastToken ≠ none) : l.ignoreRawValue ≠ .ub := by
  unfold LexerS.ignoreRawValue
  cases hx : l.lastToken with
  | none => exact absurd hx h
  | some x =>
    cases x <;> dsimp only <;> first
      | (intro hh; cases hh; done)
      | exact Res.bind_ne_ub (readNumber_more hi).ne_ub (fun _ _ => by simp)
      | exact Res.bind_ne_ub (scanQuote_fwd _ _ _ _ _ (fwd_get hi).in_ (by omega)).ne_ub (fun _ _ => by simp)

theorem peek_fwd {i : IStr} (hi : In i) : Fwd i (LexerS.peekNextNonSpace i).2 ∧
    (isPunct (LexerS.peekNextNonSpace i).1 = true → More i (LexerS.peekNextNonSpace i).2) ∧
    (isPunct (LexerS.peekNextNonSpace i).1 = false → (LexerS.peekNextNonSpace i).1 = 0xFF ∨
      ((LexerS.peekNextNonSpace i).2.good = true ∧ (LexerS.peekNextNonSpace i).2.pos < (LexerS.peekNextNonSpace i).2.data.length)) := by
  unfold In at hi
  unfold LexerS.peekNextNonSpace IStr.readChar
  split
  · next heq =>
    split at heq
    · cases heq
    · next hg =>
      dsimp only at heq
      split at heq
      · next hp =>
        simp only [Prod.mk.injEq, Option.some.injEq] at heq
        obtain ⟨hc, rfl⟩ := heq
        rename_i c
        have h1 : Fwd i { i with pos := i.pos + spaces (i.data.drop i.pos) + 1 } := ⟨rfl, by dsimp only; omega, by dsimp only; omega⟩
        split
        · next hpu =>
          dsimp only
          exact ⟨h1, fun _ => ⟨h1, by dsimp only; omega⟩, fun h => by rw [hpu] at h; cases h⟩
        · next hpu =>
          have hgood : i.eof = false ∧ i.fail = false := by simpa [IStr.good] using hg
          have hun : ({ i with pos := i.pos + spaces (i.data.drop i.pos) + 1 } : IStr).unget =
              { i with pos := i.pos + spaces (i.data.drop i.pos), eof := false } := by
            unfold IStr.unget
            dsimp only
            rw [if_neg (by simp [hgood.2]), if_neg (by omega)]
            simp
          dsimp only
          rw [hun]
          refine ⟨⟨rfl, by dsimp only; omega, by dsimp only; omega⟩, fun h => absurd h hpu, fun _ => .inr ⟨?_, hp⟩⟩
          simp [IStr.good, hgood.2]
      · cases heq
  · next heq =>
    split at heq
    · simp only [Prod.mk.injEq, true_and] at heq
      subst heq
      exact ⟨⟨rfl, Nat.le_refl _, hi⟩, fun h => absurd (show isPunct 0xFF = true from h) (by decide), fun _ => .inl rfl⟩
    · dsimp only at heq
      split at heq
      · cases heq
      · simp only [Prod.mk.injEq, true_and] at heq
        subst heq
        exact ⟨⟨rfl, hi, Nat.le_refl _⟩, fun h => absurd (show isPunct 0xFF = true from h) (by decide), fun _ => .inl rfl⟩

theorem yylex_fwd {l : LexerS} (hi : In l.inp) : Fwd l.inp l.yylex.2.inp ∧ l.yylex.2.lastToken = some l.yylex.1 ∧ l.yylex.2.lastNull = decide (l.yylex.1 = .null_) ∧
    (scalarLexeme l.yylex.1 = false → More l.inp l.yylex.2.inp) ∧ (scalarLexeme l.yylex.1 = true → AtScalar l.yylex.2) := by
  have hcl : ∀ c : Byte, scalarLexeme (Lexer.classify c) = !isPunct c := forall_byte (by decide +kernel)
  have hnum : ∀ c : Byte, scalarLexeme (Lexer.classify c) = true → Lexer.classify c ≠ .number →
      (Lexer.classify c = .true_ ∨ Lexer.classify c = .false_ ∨ Lexer.classify c = .null_ ∨ Lexer.classify c = .string) := forall_byte (by decide +kernel)
  have hy1 : l.yylex.1 = Lexer.classify (LexerS.peekNextNonSpace l.inp).1 := rfl
  have hy2 : l.yylex.2.inp = (LexerS.peekNextNonSpace l.inp).2 := rfl
  have hy3 : l.yylex.2.lastToken = some (Lexer.classify (LexerS.peekNextNonSpace l.inp).1) := rfl
  obtain ⟨h0, h1, h2⟩ := peek_fwd hi
  refine ⟨h0, rfl, rfl, fun h => ?_, fun h => ?_⟩
  · rw [hy1, hcl] at h
    rw [hy2]
    exact h1 (by simpa using h)
  · rw [hy1] at h
    have h' := h
    rw [hcl] at h'
    have h2 := h2 (by simpa using h')
    unfold AtScalar
    rw [hy2, hy3]
    by_cases hn : Lexer.classify (LexerS.peekNextNonSpace l.inp).1 = .number
    · left; rw [hn]
    · right
      refine ⟨by simpa using hnum _ h hn, ?_⟩
      rcases h2 with h3 | h3
      · rw [h3] at hn; exact absurd rfl hn
      · exact h3

/-! ### the parser -/

/-- The control part is in a state that can be reached. -/
def Ctl (c : JCtl) : Prop := c.started = true ∧ (c.currentState = .Error ∨ ∃ xs ts, CtlInv c xs ts)

/-- The invariant of the parser. -/
structure I (s : JsonS) : Prop where
  ctl : Ctl s.ctl
  inside : In s.lex.inp
  whole : Whole s.lex.inp
  null : s.lex.lastNull = true → s.lex.lastToken = some .null_
  init : s.lex.lastToken = none → s.ctl.currentState = .Init

/-- After a token. -/
structure A (t : Tok) (s : JsonS) : Prop where
  some : s.lex.lastToken ≠ none
  val : t = .Value ∨ t = .Key → AtScalar s.lex

/-- What is left of the text. -/
def m (s : JsonS) : Nat := s.lex.inp.data.length - s.lex.inp.pos

theorem m_fwd {s s' : JsonS} (h : Fwd s.lex.inp s'.lex.inp) : m s' ≤ m s := by
  unfold m
  have := h.pos
  rw [h.data]
  omega

theorem m_more {s s' : JsonS} (h : More s.lex.inp s'.lex.inp) : m s' < m s := by
  unfold m
  have := h.more
  have := h.fwd.inside
  rw [h.fwd.data]
  omega

/-- The invariant goes on with the input. -/
theorem I.go {s : JsonS} (h : I s) {l : LexerS} (h1 : Fwd s.lex.inp l.inp) (h2 : l.lastToken = s.lex.lastToken) (h3 : l.lastNull = s.lex.lastNull) :
    I { s with lex := l } :=
  ⟨h.ctl, h1.in_, by have := h.whole; unfold Whole at this ⊢; dsimp only; rw [h1.data]; exact this,
    fun e => by dsimp only at e ⊢; rw [h2]; rw [h3] at e; exact h.null e, fun e => h.init (by rw [← h2]; exact e)⟩

/-- One or two lexemes make a token. -/
theorem lexStep_ctl {s : JsonS} (hs : s.ctl.started = true) (he : s.ctl.currentState ≠ .Error) (hc : Ctl s.ctl) :
    Safe (fun x => Ctl x.2.ctl) (s.lexStep 2) := by
  obtain ⟨-, h | ⟨xs, ts, hi⟩⟩ := hc
  · exact absurd h he
  simp only [JsonS.lexStep]
  rcases feed_inv hi s.lex.yylex.1 with ⟨c', hf, hc⟩ | ⟨t, c', hf, h1, h2, h3, h4, h5⟩
  · rw [hf]
    exact .ok ⟨(feed_started hf).trans hs, .inl hc⟩
  · rw [hf]
    cases t with
    | some t => exact .ok ⟨(feed_started hf).trans hs, .inr ⟨_, _, h5⟩⟩
    | none =>
      simp only [Res.ok_bind]
      rcases feed_inv h5 s.lex.yylex.2.yylex.1 with ⟨c2, hf2, hc2⟩ | ⟨t2, c2, hf2, g1, g2, g3, g4, g5⟩
      · rw [hf2]
        exact .ok ⟨((feed_started hf2).trans (feed_started hf)).trans hs, .inl hc2⟩
      · cases t2 with
        | none => exact absurd hf2 (feed_twice hf)
        | some t2 =>
          rw [hf2]
          exact .ok ⟨((feed_started hf2).trans (feed_started hf)).trans hs, .inr ⟨_, _, g5⟩⟩

theorem lexStep_fwd : ∀ (fuel : Nat) (s s1 : JsonS) (t : Tok), In s.lex.inp → s.lexStep fuel = .ok (t, s1) →
    Fwd s.lex.inp s1.lex.inp ∧ (s1.lex.lastNull = true → s1.lex.lastToken = some .null_) ∧ A t s1 ∧ m s1 + w t ≤ m s
  | 0, _, _, _, _, h => by cases h
  | f + 1, s, s1, t, hi, h => by
    unfold JsonS.lexStep at h
    obtain ⟨hl, h1, h2, h3, h4⟩ := yylex_fwd hi
    rcases hy : s.lex.yylex with ⟨x, l⟩
    rw [hy] at h h1 h2 h3 h4 hl
    dsimp only at h h1 h2 h3 h4 hl
    cases hf : s.ctl.feed x with
    | throw e => rw [hf] at h; cases h
    | ub => rw [hf] at h; cases h
    | ok a =>
      obtain ⟨o, c⟩ := a
      rw [hf] at h
      have hlm : m ⟨l, c⟩ ≤ m s := m_fwd (s' := ⟨l, c⟩) hl
      cases o with
      | some tok =>
        simp only [Res.ok_bind, Res.pure_eq, Res.ok.injEq, Prod.mk.injEq] at h
        obtain ⟨rfl, rfl⟩ := h
        obtain ⟨f1, f2, f3⟩ := feed_some hf
        refine ⟨hl, ?_, ⟨by simp [h1], fun e => h4 (f2 e)⟩, ?_⟩
        · intro hn
          dsimp only at hn ⊢
          rw [h2] at hn
          rw [h1, of_decide_eq_true hn]
        · by_cases hw : w tok = 0
          · omega
          · have : m ⟨l, c⟩ < m s := m_more (s' := ⟨l, c⟩) (h3 (f1 hw))
            omega
      | none =>
        simp only [Res.ok_bind] at h
        obtain ⟨g1, g3, g4, g5⟩ := lexStep_fwd f _ _ _ (by exact hl.in_) h
        exact ⟨hl.trans g1, g3, g4, by omega⟩

theorem next_ends {s : JsonS} (h : I s) : Safe (fun x => I x.2 ∧ A x.1 x.2 ∧ m x.2 + w x.1 ≤ m s) s.getNextToken := by
  have hst := h.ctl.1
  unfold JsonS.getNextToken
  rw [if_neg (by simp [hst])]
  split
  · next hd =>
    have hne : s.lex.lastToken ≠ none := fun e => by have := h.init e; rw [hd] at this; cases this
    exact .ok ⟨⟨⟨hst, .inl rfl⟩, h.inside, h.whole, h.null, fun e => absurd e hne⟩, ⟨hne, fun e => by simp at e⟩, Nat.le_refl _⟩
  · split
    · next hd =>
      have hne : s.lex.lastToken ≠ none := fun e => by have := h.init e; rw [hd] at this; cases this
      exact .ok ⟨h, ⟨hne, fun e => by simp at e⟩, Nat.le_refl _⟩
    · next he =>
      refine (lexStep_ctl hst he h.ctl).and ?_ |>.mono fun x hx => hx.2
      rintro ⟨t, s1⟩ e
      obtain ⟨g1, g3, g4, g5⟩ := lexStep_fwd _ _ _ _ h.inside e
      have hc : Ctl s1.ctl := (lexStep_ctl hst he h.ctl).yields _ e
      have hw := h.whole
      unfold Whole at hw
      exact ⟨⟨hc, g1.in_, by unfold Whole; rw [g1.data]; exact hw, g3, fun e => absurd e g4.some⟩, g4, g5⟩

theorem getStr_ends {s : JsonS} (h : I s) : Safe (fun x => I x.2 ∧ m x.2 < m s) (JsonS.ops.getStr s) := by
  show Safe _ (do let (v, l) ← s.lex.getStringInto; return (v, { s with lex := l }))
  refine (getStringInto_more h.inside h.whole).bind ?_
  rintro ⟨v, l⟩ ⟨h1, h2, h3⟩
  exact .ok ⟨h.go h1.fwd h2 h3, m_more h1⟩

theorem getKey_ends {s : JsonS} (h : I s) : Safe (fun x => I x.2 ∧ m x.2 < m s) (JsonS.ops.getKey s) := by
  show Safe _ (do let (v, l) ← s.lex.getString; return (v, { s with lex := l }))
  unfold LexerS.getString
  refine Safe.bind (P := fun x => More s.lex.inp x.2.inp ∧ x.2.lastToken = s.lex.lastToken ∧ x.2.lastNull = s.lex.lastNull) ?_ ?_
  · exact (getStringInto_more h.inside h.whole).bind fun x hx => .ok hx
  · rintro ⟨v, l⟩ ⟨h1, h2, h3⟩
    exact .ok ⟨h.go h1.fwd h2 h3, m_more h1⟩

theorem jsonS_ends (st : ParseType) : Halts JsonS.ops true false true (fun _ => I) (fun _ => A) m w st where
  error := rfl
  mapStart := by decide
  arrayStart := by decide
  loose _ _ _ _ h := h
  keyTok h := by cases h
  next _ s h := next_ends h
  getKey _ t s _ h _ _ := (getKey_ends h).mono fun x hx => ⟨hx.1, .inl (by have := hx.2; omega)⟩
  getInt _ k _ s h _ := by
    show Safe _ (do let (v, l) ← s.lex.scanInt k; return (v, { s with lex := l }))
    unfold LexerS.scanInt
    refine Safe.bind (P := fun x => More s.lex.inp x.2.inp ∧ x.2.lastToken = s.lex.lastToken ∧ x.2.lastNull = s.lex.lastNull) ?_ ?_
    · refine (readIntValue_more h.inside k).bind ?_
      rintro ⟨⟨ok, v⟩, i⟩ hx
      dsimp only at hx ⊢
      split
      · exact .throwStd
      · next hok => exact .ok ⟨hx (by simpa using hok), rfl, rfl⟩
    · rintro ⟨v, l⟩ ⟨h1, h2, h3⟩
      exact .ok ⟨h.go h1.fwd h2 h3, m_more h1⟩
  getFlt _ f _ s h _ := by
    show Safe _ (do let (v, l) ← s.lex.scanFlt f; return (v, { s with lex := l }))
    unfold LexerS.scanFlt
    refine Safe.bind (P := fun x => More s.lex.inp x.2.inp ∧ x.2.lastToken = s.lex.lastToken ∧ x.2.lastNull = s.lex.lastNull) ?_ ?_
    · refine (readFltValue_more h.inside f).bind ?_
      rintro ⟨⟨ok, v⟩, i⟩ hx
      dsimp only at hx ⊢
      split
      · exact .throwStd
      · next hok => exact .ok ⟨hx (by simpa using hok), rfl, rfl⟩
    · rintro ⟨v, l⟩ ⟨h1, h2, h3⟩
      exact .ok ⟨h.go h1.fwd h2 h3, m_more h1⟩
  getBool _ s h ha := by
    show Safe _ (do let (v, l) ← s.lex.getLastBool; return (v, { s with lex := l }))
    refine (getLastBool_more (ha.val (.inl rfl))).bind ?_
    rintro ⟨v, l⟩ ⟨h1, h2, h3⟩
    exact .ok ⟨h.go h1.fwd h2 h3, m_more h1⟩
  getStr _ s h _ := (getStr_ends h).mono fun x hx => ⟨hx.1, by have := hx.2; omega⟩
  null _ t s h ha hn := by
    show Safe _ (do let l ← s.lex.ignoreRawValue; return { s with lex := l })
    by_cases ht : t = .Value
    · have ha := ha.resolve_left (by simp [ht])
      refine (ignoreRaw_more h.inside (ha.val (.inl ht))).bind fun l hl => .ok ⟨h.go hl.1.fwd hl.2.1 hl.2.2, ?_, fun _ => ?_⟩ <;>
      · have := m_more (s' := { s with lex := l }) hl.1
        omega
    unfold LexerS.ignoreRawValue
    rw [h.null hn]
    have hf := fwd_ignore h.inside 4
    refine .ok ⟨h.go (l := { s.lex with inp := s.lex.inp.ignore 4, lastToken := some .null_ }) hf (h.null hn).symm rfl, ?_, fun h => h.elim (fun h => by cases h) fun h => absurd h ht⟩
    exact Nat.le_trans (m_fwd (s' := { s with lex := { s.lex with inp := s.lex.inp.ignore 4, lastToken := some .null_ } }) hf) (Nat.le_add_right _ _)
  skip _ _ t s h ha _ := by
    show Safe _ (do let l ← s.lex.ignoreRawValue; return { s with lex := l })
    by_cases ht : t = .Key ∨ t = .Value
    · refine (ignoreRaw_more h.inside (ha.val ht.symm)).bind fun l hl => .ok fun _ => ⟨h.go hl.1.fwd hl.2.1 hl.2.2, ?_⟩
      have := m_more (s' := { s with lex := l }) hl.1
      omega
    · exact Safe.of (fun x _ e => absurd e ht) (Res.bind_ne_ub (ignoreRaw_safe h.inside ha.some) (by simp))

end SEnds
end Thors
