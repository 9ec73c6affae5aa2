import Verif.Proofs.BsonStream
/-
BSON documents in a stream: what the parser on a string shows of a document, the parser on a stream shows too.
-/
namespace Thors
open StrIn Spec

/-! ### Skipping values with a size that is not negative -/

/-- The value is a string or binary data, and its size is negative. -/
def BsonP.badSize (s : BsonP) : Bool :=
  (s.skip && (s.type == 0x02 || s.type == 0x05)) && (match readLE 4 s.inp with | .ok (n, _) => decide (n < 0) | _ => false)

/-- `ignoreDataValue`, with an own outcome for negative sizes. -/
def BsonP.ignoreChecked (s : BsonP) : Res BsonP := if s.badSize then .ub else s.ignoreDataValue

theorem BsonP.skipper_checked : BsonP.Skipper BsonP.ignoreChecked where
  value {c C r L Z rest s x} hv h := by
    have hb : s.badSize = false := by
      have ht := h.type
      have h2 := h.hi
      have h1 := h.lo
      unfold BsonP.badSize
      cases x with
      | str t =>
        have hlen : (BScalar.str t).payload.length = 4 + t.length + 1 := by simp [BScalar.payload, le_length]; omega
        rw [hlen] at h2
        have hi := h.inp
        simp only [BScalar.payload, List.append_assoc] at hi
        obtain ⟨inp', e, hi⟩ := hi.readLE (by omega) (by omega)
        rw [e]
        simp
        omega
      | bin sub t =>
        have hlen : (BScalar.bin sub t).payload.length = 4 + 1 + t.length := by simp [BScalar.payload, le_length]; omega
        rw [hlen] at h2
        have hi := h.inp
        simp only [BScalar.payload, List.append_assoc] at hi
        obtain ⟨inp', e, hi⟩ := hi.readLE (by omega) (by omega)
        rw [e]
        simp
      | fixed f p => cases f <;> simp only [BScalar.code, Fixed.code] at ht <;> simp [ht]
      | _ => simp only [BScalar.code] at ht; simp [ht]
    rw [BsonP.ignoreChecked, hb]
    exact h.skip' hv
  nothing {s} h := by
    have hb : s.badSize = false := by unfold BsonP.badSize; rw [h]; rfl
    rw [BsonP.ignoreChecked, hb]
    exact BsonP.skipper_ignore.nothing h

theorem BLive.ignoreChecked {w : Prop} {pre : Bytes} {s : BsonP} {s' : BsonS} (h : BLive w pre s s') {s1 : BsonP} (e : s.ignoreChecked = .ok s1) :
    (∃ s2, s'.ignoreDataValue = .ok s2 ∧ BLive w pre s1 s2) ∨ BLost s1 := by
  unfold BsonP.ignoreChecked at e
  cases hb : s.badSize with
  | true => rw [hb] at e; cases e
  | false =>
    rw [hb, if_neg (by decide)] at e
    cases hk : s.skip with
    | false =>
      rw [BsonP.ignoreDataValue, if_pos hk] at e
      cases e
      exact .inl ⟨s', by rw [BsonS.ignoreDataValue, if_pos (by rw [h.eq]; exact hk)], h⟩
    | true =>
      have hz : (s.type = 0x02 ∨ s.type = 0x05) → ∀ n a, Thors.readLE 4 s.inp = .ok (n, a) → 0 ≤ n := by
        intro ht n a e
        unfold BsonP.badSize at hb
        rw [hk, e] at hb
        have : (s.type == 0x02 || s.type == 0x05) = true := by simpa using ht
        rw [this] at hb
        simp at hb
        omega
      rcases h.ignoreData (.inl (.inr hz)) with ⟨x, y, e1, e2, hl⟩ | ⟨hd, -⟩
      · rw [e] at e1
        cases e1
        exact .inl ⟨y, e2, hl⟩
      · exact .inr (hd _ e)

/-! ### Exceptions -/

/-- No exception. -/
def NoThrow {α : Type} (r : Res α) : Prop := ∀ e, r ≠ .throw e

namespace NoThrow
variable {α β : Type}
theorem ok {a : α} : NoThrow (.ok a) := fun _ h => by cases h
theorem ub : NoThrow (.ub : Res α) := fun _ h => by cases h
theorem bind {r : Res α} {f : α → Res β} (h : NoThrow r) (hf : ∀ a, NoThrow (f a)) : NoThrow (r >>= f) := by
  cases r with
  | ok a => exact hf a
  | throw e => exact absurd rfl (h e)
  | ub => exact ub
theorem ite {c : Prop} [Decidable c] {r s : Res α} (h1 : NoThrow r) (h2 : NoThrow s) : NoThrow (if c then r else s) := by
  split
  · exact h1
  · exact h2
end NoThrow

theorem BsonP.use_noThrow (n : Int) (s : BsonP) : NoThrow (s.use n) := by
  unfold BsonP.use
  split
  · exact .ub
  · exact .ok

/-- What the parser on a string throws, the parser on a stream throws too. -/
def Throws {α β : Type} (r : Res α) (r' : Res β) : Prop := ∀ e, r = .throw e → r' = .throw e

namespace Throws
variable {α β γ δ : Type}
theorem none {r : Res α} {r' : Res β} (h : NoThrow r) : Throws r r' := fun e he => absurd he (h e)
theorem both : Throws (throwStd : Res α) (throwStd : Res β) := fun e he => by cases he; rfl
theorem ite {c : Prop} [Decidable c] {r s : Res α} {r' s' : Res β} (h1 : c → Throws r r') (h2 : ¬ c → Throws s s') :
    Throws (if c then r else s) (if c then r' else s') := by
  by_cases h : c
  · rw [if_pos h, if_pos h]; exact h1 h
  · rw [if_neg h, if_neg h]; exact h2 h
theorem bind {L : α → β → Prop} {D' : β → Prop} {r : Res α} {r' : Res β} {f : α → Res γ} {f' : β → Res δ} (h : Agree L (fun _ => False) D' r r') (hr : NoThrow r)
    (hf : ∀ x y, L x y → Throws (f x) (f' y)) : Throws (r >>= f) (r' >>= f') := by
  rcases h with ⟨x, y, e1, e2, hl⟩ | ⟨h1, -⟩
  · rw [e1, e2]; exact hf x y hl
  · cases r with
    | ok x => exact (h1 x rfl).elim
    | throw e => exact absurd rfl (hr e)
    | ub => exact none .ub
end Throws

theorem SameInput.readLE_noThrow {w : Prop} {pre : Bytes} {a : StrIn} {i : IStr} (h : SameInput w pre a i) (n : Nat) : NoThrow (Thors.readLE n a) := by
  unfold Thors.readLE
  by_cases hn : a.pos + n ≤ a.data.length
  · obtain ⟨a', i', e1, -, -, hl⟩ := h.read_enough hn
    rw [e1]
    simp only [Res.ok_bind]
    exact .ite .ub .ok
  · obtain ⟨got, a', i', e1, -⟩ := h.read_short (Nat.lt_of_not_le hn)
    rw [e1]
    simp only [Res.ok_bind]
    exact .ite .ub .ok

namespace BLive
variable {w : Prop} {pre : Bytes} {s : BsonP} {s' : BsonS}

theorem readInt_noThrow (h : BLive w pre s s') (n : Nat) : NoThrow (s.readInt n) := by
  unfold BsonP.readInt
  intro e he
  rcases hu : s.use n with s1 | e1 | _
  · rw [hu] at he
    have hl : SameInput w pre s1.inp s'.inp := by
      obtain ⟨l, ls, -, rfl⟩ := BsonP.use_ok hu
      exact h.inp
    exact (hl.readLE_noThrow n).bind (fun _ => .ok) e he
  · exact BsonP.use_noThrow n s e1 hu
  · rw [hu] at he
    cases he

theorem getInt_throws (h : BLive w pre s s') (k : IntKind) : Throws (s.getInt k) (s'.getInt k) := by
  unfold BsonP.getInt BsonS.getInt
  rw [show s'.type = s.type by rw [h.eq]; rfl]
  exact .ite (fun _ => .none ((h.readInt_noThrow 4).bind fun _ => .ok)) fun _ => .ite (fun _ => .none ((h.readInt_noThrow 8).bind fun _ => .ok)) fun _ => .both

theorem readDouble_noThrow (h : BLive w pre s s') : NoThrow s.readDouble := by
  unfold BsonP.readDouble
  by_cases hn : s.inp.pos + 8 ≤ s.inp.data.length
  · obtain ⟨a', i', e1, -, -, hl⟩ := h.inp.read_enough hn
    rw [e1]
    simp only [Res.ok_bind, Bool.true_eq_false, if_false]
    exact (BsonP.use_noThrow _ _).bind fun _ => .ite .ub .ok
  · obtain ⟨got, a', i', e1, -⟩ := h.inp.read_short (Nat.lt_of_not_le hn)
    rw [e1]
    simp only [Res.ok_bind, Bool.true_eq_false, if_false]
    exact (BsonP.use_noThrow _ _).bind fun _ => .ite .ub .ok

theorem getFlt_throws (h : BLive w pre s s') (f : FKind) : Throws (s.getFlt f) (s'.getFlt f) := by
  unfold BsonP.getFlt BsonS.getFlt
  rw [show s'.type = s.type by rw [h.eq]; rfl]
  exact .ite (fun _ => .none ((h.readInt_noThrow 4).bind fun _ => .ok)) fun _ => .ite (fun _ => .none ((h.readInt_noThrow 8).bind fun _ => .ok)) fun _ =>
    .ite (fun _ => .none (h.readDouble_noThrow.bind fun _ => .ok)) fun _ => .both

theorem readBool_noThrow (h : BLive w pre s s') : NoThrow s.readBool := by
  unfold BsonP.readBool
  by_cases hn : s.inp.pos + 1 ≤ s.inp.data.length
  · obtain ⟨a', i', e1, -, -, hl⟩ := h.inp.read_enough hn
    rw [e1]
    simp only [Res.ok_bind, Bool.true_eq_false, if_false]
    refine (BsonP.use_noThrow _ _).bind fun _ => ?_
    split
    · exact .ok
    · exact .ok
    · exact .ub
  · obtain ⟨got, a', i', e1, -⟩ := h.inp.read_short (Nat.lt_of_not_le hn)
    rw [e1]
    simp only [Res.ok_bind, Bool.true_eq_false, if_false]
    refine (BsonP.use_noThrow _ _).bind fun _ => ?_
    split
    · exact .ok
    · exact .ok
    · exact .ub

theorem getBool_throws (h : BLive w pre s s') : Throws s.getBool s'.getBool := by
  unfold BsonP.getBool BsonS.getBool
  rw [show s'.type = s.type by rw [h.eq]; rfl]
  exact .ite (fun _ => .both) fun _ => .none h.readBool_noThrow

theorem getStr_throws (h : BLive w pre s s') : Throws s.getStr s'.getStr := by
  unfold BsonP.getStr BsonS.getStr
  rw [show s'.type = s.type by rw [h.eq]; rfl]
  refine .ite (fun _ => .both) fun _ => ?_
  unfold BsonP.readString BsonS.readString
  refine Throws.bind h.inp.readLE (h.inp.readLE_noThrow 4) ?_
  rintro ⟨n, a⟩ ⟨n', i⟩ ⟨h1, h2, -⟩
  dsimp only at h1 h2 ⊢
  subst h1
  have hl' : BLive w pre { s with inp := a } { s' with inp := i } := ⟨by rw [h.eq]; rfl, h2, h.value⟩
  refine Throws.bind (hl'.use 4) (BsonP.use_noThrow _ _) ?_
  rintro x y ⟨hL, -⟩
  refine .ite (fun _ => .ite (fun _ => .both) fun _ => .none .ub) fun _ => ?_
  obtain ⟨e, hi, hv⟩ := hL
  by_cases hn : x.inp.pos + n.toNat ≤ x.inp.data.length
  · obtain ⟨a', i', e1, e2, hs, hl⟩ := hi.read_enough hn
    rw [e1, e2]
    simp only [Res.ok_bind, Bool.true_eq_false, if_false]
    have hl' : BLive w pre { x with inp := a' } { y with inp := i' } := ⟨by rw [e]; rfl, hs, hv⟩
    refine Throws.bind (hl'.use n) (BsonP.use_noThrow _ _) ?_
    rintro x2 y2 -
    exact .ite (fun _ => .both) fun _ => .none .ok
  · obtain ⟨got, a', i', e1, e2, hl, hd, hp⟩ := hi.read_short (Nat.lt_of_not_le hn)
    rw [e1, e2]
    simp only [Res.ok_bind, Bool.true_eq_false, if_false, if_true]
    have h0 : 0 < n.toNat := by omega
    refine .none ((BsonP.use_noThrow _ _).bind fun _ => ?_)
    rw [if_neg (by simp; omega)]
    exact .ok

theorem readBinary (h : BLive w pre s s') (hk : s.skip = true) : Agree (fun x y => x.1 = y.1 ∧ BLive w pre x.2 y.2) (fun x => BLost x.2) (fun _ => False) s.readBinary s'.readBinary := by
  unfold BsonP.readBinary BsonS.readBinary
  refine h.inp.readLE.bind0 ?_
  rintro ⟨n, a⟩ ⟨n', i⟩ ⟨h1, h2, -⟩
  dsimp only at h1 h2 ⊢
  subst h1
  have hl' : BLive w pre { s with inp := a } { s' with inp := i } := ⟨by rw [h.eq]; rfl, h2, h.value⟩
  refine (hl'.use 4).bind0 ?_
  rintro x y ⟨⟨e, hi, hv⟩, hx1, hx2, -⟩
  by_cases hn : x.inp.pos + 1 ≤ x.inp.data.length
  · obtain ⟨a', i', e1, e2, hs, hl⟩ := hi.read_enough hn
    rw [e1, e2]
    simp only [Res.ok_bind, Bool.true_eq_false, if_false]
    have hl' : BLive w pre { x with inp := a' } { y with inp := i' } := ⟨by rw [e]; rfl, hs, hv⟩
    refine (hl'.use 1).bind0 ?_
    rintro x y ⟨⟨e, hi, hv⟩, -⟩
    refine .ite (fun _ => .throwStd) fun _ => ?_
    by_cases hn : x.inp.pos + n.toNat ≤ x.inp.data.length
    · obtain ⟨a', i', e1, e2, hs, hl⟩ := hi.read_enough hn
      rw [e1, e2]
      simp only [Res.ok_bind, Bool.true_eq_false, if_false]
      have hl' : BLive w pre { x with inp := a' } { y with inp := i' } := ⟨by rw [e]; rfl, hs, hv⟩
      refine (hl'.use n).bind0 ?_
      rintro x2 y2 ⟨hL, -⟩
      rw [if_neg (by omega)]
      exact .ok ⟨rfl, hL⟩
    · obtain ⟨got, a', i', e1, e2, hl, -⟩ := hi.read_short (Nat.lt_of_not_le hn)
      rw [e1, e2]
      simp only [Res.ok_bind, Bool.true_eq_false, if_false, if_true]
      refine .inr ⟨?_, .throwStd⟩
      intro z hz
      obtain ⟨s1, h1, h2⟩ := Res.bind_ok hz
      rw [if_pos hl] at h2
      cases h2
  · obtain ⟨got, a', i', e1, e2, hl, hd, hp⟩ := hi.read_short (Nat.lt_of_not_le hn)
    rw [e1, e2]
    simp only [Res.ok_bind, Bool.true_eq_false, if_false, if_true]
    refine .inr ⟨?_, .throwStd⟩
    intro z hz
    obtain ⟨s1, h1, h2⟩ := Res.bind_ok hz
    obtain ⟨l, ls, -, rfl⟩ := BsonP.use_ok h1
    split at h2
    · cases h2
    obtain ⟨⟨g, good, inp⟩, h3, h4⟩ := Res.bind_ok h2
    dsimp only at h3 h4
    unfold StrIn.read at h3
    rw [if_neg (by rw [hd, hp]; omega)] at h3
    simp only [Res.ok.injEq, Prod.mk.injEq] at h3
    obtain ⟨rfl, -, rfl⟩ := h3
    split at h4
    · cases h4
    obtain ⟨s2, h5, h6⟩ := Res.bind_ok h4
    obtain ⟨l2, ls2, -, rfl⟩ := BsonP.use_ok h5
    split at h6
    · cases h6
    · cases h6
      have hnv : x.next = .Value := hv (by rw [hx2]; exact hk)
      exact ⟨by dsimp only; rw [hd, hp]; omega, fun e => absurd (hnv.symm.trans e) (by decide), hv⟩

theorem getRaw (h : BLive w pre s s') (hk : s.skip = true) : Agree (fun x y => x.1 = y.1 ∧ BLive w pre x.2 y.2) (fun x => BLost x.2) (fun _ => False) s.getRaw s'.getRaw := by
  unfold BsonP.getRaw BsonS.getRaw
  rw [show s'.type = s.type by rw [h.eq]; rfl]
  refine .ite (fun _ => (h.readInt 4).bind0 fun x y hx => .ok ⟨by rw [hx.1], hx.2⟩) fun _ =>
    .ite (fun _ => (h.readInt 8).bind0 fun x y hx => .ok ⟨by rw [hx.1], hx.2⟩) fun _ =>
    .ite (fun _ => h.readBool.bind0 fun x y hx => .ok ⟨by rw [hx.1], hx.2⟩) fun _ =>
    .ite (fun _ => .ok ⟨rfl, h⟩) fun _ => .ite (fun _ => ?_) fun _ => .ite (fun _ => h.readDouble.bind0 fun x y hx => .ok ⟨by rw [hx.1], hx.2⟩) fun _ =>
    .ite (fun _ => h.readBinary hk) fun _ => .throwStd
  exact (h.readString [0x22] hk).bind (fun x y hx => .ok ⟨by rw [hx.1], hx.2⟩) (fun x hx => .ok hx) fun _ hy => hy.elim

theorem token (h : BLive w pre s s') {t : Tok} {s1 : BsonP} (e : s.getNextToken = .ok (t, s1)) :
    ∃ y, s'.getNextToken = .ok (t, y) ∧ BLive w pre s1 y ∧ (t = .Value → s1.skip = true) := by
  rcases h.next with ⟨⟨t1, p⟩, ⟨t2, q⟩, e1, e2, h1, h2, h3⟩ | ⟨hd, -⟩
  · rw [e] at e1
    cases e1
    dsimp only at h1 h2 h3
    subst h1
    exact ⟨q, e2, h2, h3⟩
  · exact (hd _ e).elim

end BLive

/-! ### Documents -/

/-- No state in `Q` is one the parser cannot recover from. -/
def NotBLost (Q : BsonP → Prop) : Prop := ∀ s, Q s → ¬ BLost s

theorem BLost.ignoreChecked {s : BsonP} (h : BLost s) : Yields BLost s.ignoreChecked := .ite .ub h.ignoreData

mutual
theorem after_notLost : ∀ (t : BTree) {Q : BsonP → Prop}, NotBLost Q → ∀ {s}, After (BsonP.opsI BsonP.ignoreChecked) bsem t Q s → ¬ BLost s
  | .scalar x, Q, hq, s, h, hl => by
    obtain ⟨s1, e, h1⟩ := h.2.2.2.2.1 (.inr rfl)
    exact hq _ h1 (hl.ignoreChecked _ e)
  | .arr ts, Q, hq, s, h, hl => elems_notLost ts hq h.2 hl
  | .obj ms, Q, hq, s, h, hl => members_notLost ms hq h.2 hl
theorem elems_notLost : ∀ (ts : List BTree) {Q : BsonP → Prop}, NotBLost Q → ∀ {s}, After.elems (BsonP.opsI BsonP.ignoreChecked) bsem ts Q s → ¬ BLost s
  | [], Q, hq, s, ⟨s1, e, h1⟩, hl => hq _ h1 (hl.next _ e).1
  | t :: ts, Q, hq, s, ⟨s1, e, h1⟩, hl => after_notLost t (fun _ h => elems_notLost ts hq h) h1 (hl.next _ e).1
theorem members_notLost : ∀ (ms : List (Bytes × BTree)) {Q : BsonP → Prop}, NotBLost Q → ∀ {s}, After.members (BsonP.opsI BsonP.ignoreChecked) bsem ms Q s → ¬ BLost s
  | [], Q, hq, s, ⟨s1, e, h1⟩, hl => hq _ h1 (hl.next _ e).1
  | (k, t) :: ms, Q, hq, s, ⟨s1, e, ⟨s2, e2, s3, e3, h3⟩, _⟩, hl => by
    cases e2
    exact after_notLost t (fun _ h => members_notLost ms hq h) h3 ((hl.next _ e).1.next _ e3).1
end

/-- The states of the parser on a stream that belong to `Q`. -/
def Onto (w : Prop) (pre : Bytes) (Q : BsonP → Prop) (s' : BsonS) : Prop := ∃ s, Q s ∧ BLive w pre s s'

section
variable {w : Prop} {pre : Bytes}

theorem reads_onto {α : Type} {Q : BsonP → Prop} (hq : NotBLost Q) {r : Res (α × BsonP)} {r' : Res (α × BsonS)} {D' : α × BsonS → Prop}
    (h : Agree (fun x y => x.1 = y.1 ∧ BLive w pre x.2 y.2) (fun x => BLost x.2) D' r r') {e : Res α} (ht : e ≠ .ub ∧ Throws r r' ∨ ∃ a, e = .ok a)
    (hr : Reads Q r e) : Reads (Onto w pre Q) r' e := by
  cases e with
  | ok a =>
    obtain ⟨s1, e1, h1⟩ := hr
    rcases h with ⟨⟨a1, p⟩, ⟨b, q⟩, e2, e3, h2, h3⟩ | ⟨hd, -⟩
    · rw [e1] at e2
      cases e2
      dsimp only at h2 h3
      subst h2
      exact ⟨q, e3, s1, h1, h3⟩
    · exact absurd (hd _ e1) (hq _ h1)
  | throw e =>
    rcases ht with ht | ⟨a, ht⟩
    · exact ht.2 e hr
    · cases ht
  | ub =>
    rcases ht with ht | ⟨a, ht⟩
    · exact absurd rfl ht.1
    · cases ht

theorem agree_lost {α : Type} {r : Res (α × BsonP)} {r' : Res (α × BsonS)} {D' : α × BsonS → Prop}
    (h : Agree (fun x y => x.1 = y.1 ∧ BLive w pre x.2 y.2) (fun _ => False) D' r r') :
    Agree (fun x y => x.1 = y.1 ∧ BLive w pre x.2 y.2) (fun x => BLost x.2) D' r r' := h.mono (fun _ _ h => h) (fun _ h => h.elim) fun _ h => h

theorem bsem_int (k : IntKind) (x : BScalar) : bsem.readInt k x ≠ .ub := by cases x <;> simp [bsem, throwStd]
theorem bsem_bool (x : BScalar) : bsem.readBool x ≠ .ub := by cases x <;> simp [bsem, throwStd]
theorem bsem_str (x : BScalar) : bsem.readStr x ≠ .ub := by cases x <;> simp [bsem, throwStd]
theorem bsem_flt (f : FKind) (x : BScalar) : bsem.readFlt f x ≠ .ub := by
  cases x with
  | fixed g p => cases g <;> simp [bsem, throwStd]
  | _ => simp [bsem, throwStd]

mutual
theorem after_onto : ∀ (t : BTree) {Q : BsonP → Prop}, NotBLost Q → ∀ {s : BsonP} {s' : BsonS}, (t.tok = .Value → s.skip = true) → BLive w pre s s' →
    After (BsonP.opsI BsonP.ignoreChecked) bsem t Q s → After BsonS.ops bsem t (Onto w pre Q) s'
  | .scalar x, Q, hq, s, s', hk, hl, ⟨h1, h2, h3, h4, h5, h6, h7⟩ => by
    have hk := hk rfl
    refine ⟨?_, fun k => ?_, ?_, ?_, fun hs => ?_, fun b hb => ?_, fun f => ?_⟩
    · rw [← h1]
      show s'.isValueNull = s.isValueNull
      rw [hl.eq]; rfl
    · exact reads_onto hq (agree_lost (hl.getInt k)) (.inl ⟨bsem_int k x, hl.getInt_throws k⟩) (h2 k)
    · exact reads_onto hq (agree_lost hl.getBool) (.inl ⟨bsem_bool x, hl.getBool_throws⟩) h3
    · exact reads_onto hq (hl.getStr hk) (.inl ⟨bsem_str x, hl.getStr_throws⟩) h4
    · obtain ⟨s1, e, hs1⟩ := h5 hs
      rcases hl.ignoreChecked e with ⟨s2, e2, hl2⟩ | hlost
      · exact ⟨s2, e2, s1, hs1, hl2⟩
      · exact absurd hlost (hq _ hs1)
    · exact reads_onto hq (hl.getRaw hk) (.inr ⟨b, rfl⟩) (h6 b hb)
    · exact reads_onto hq (agree_lost (hl.getFlt f)) (.inl ⟨bsem_flt f x, hl.getFlt_throws f⟩) (h7 f)
  | .arr ts, Q, hq, s, s', _, hl, h => ⟨by
      rw [← h.1]
      show s'.isValueNull = s.isValueNull
      rw [hl.eq]; rfl, elems_onto ts hq hl h.2⟩
  | .obj ms, Q, hq, s, s', _, hl, h => ⟨by
      rw [← h.1]
      show s'.isValueNull = s.isValueNull
      rw [hl.eq]; rfl, members_onto ms hq hl h.2⟩
theorem elems_onto : ∀ (ts : List BTree) {Q : BsonP → Prop}, NotBLost Q → ∀ {s : BsonP} {s' : BsonS}, BLive w pre s s' →
    After.elems (BsonP.opsI BsonP.ignoreChecked) bsem ts Q s → After.elems BsonS.ops bsem ts (Onto w pre Q) s'
  | [], Q, hq, s, s', hl, ⟨s1, e, h1⟩ => by
    obtain ⟨y, e2, hl2, -⟩ := hl.token e
    exact ⟨y, e2, s1, h1, hl2⟩
  | t :: ts, Q, hq, s, s', hl, ⟨s1, e, h1⟩ => by
    obtain ⟨y, e2, hl2, hk⟩ := hl.token e
    refine ⟨y, e2, after_mono BsonS.ops bsem t ?_ (after_onto t (fun _ h => elems_notLost ts hq h) hk hl2 h1)⟩
    rintro s2 ⟨s3, h3, hl3⟩
    exact elems_onto ts hq hl3 h3
theorem members_onto : ∀ (ms : List (Bytes × BTree)) {Q : BsonP → Prop}, NotBLost Q → ∀ {s : BsonP} {s' : BsonS}, BLive w pre s s' →
    After.members (BsonP.opsI BsonP.ignoreChecked) bsem ms Q s → After.members BsonS.ops bsem ms (Onto w pre Q) s'
  | [], Q, hq, s, s', hl, ⟨s1, e, h1⟩ => by
    obtain ⟨y, e2, hl2, -⟩ := hl.token e
    exact ⟨y, e2, s1, h1, hl2⟩
  | (k, t) :: ms, Q, hq, s, s', hl, ⟨s1, e, ⟨s2, e2, s3, e3, h3⟩, h4⟩ => by
    obtain ⟨y, f1, hl1, -⟩ := hl.token e
    have rest : ∀ {s3 : BsonP} {y3 : BsonS}, (t.tok = .Value → s3.skip = true) → BLive w pre s3 y3 → After (BsonP.opsI BsonP.ignoreChecked) bsem t (After.members (BsonP.opsI BsonP.ignoreChecked) bsem ms Q) s3 →
        After BsonS.ops bsem t (After.members BsonS.ops bsem ms (Onto w pre Q)) y3 := by
      intro s3 y3 hk hl3 h3
      refine after_mono BsonS.ops bsem t ?_ (after_onto t (fun _ h => members_notLost ms hq h) hk hl3 h3)
      rintro s4 ⟨s5, h5, hl5⟩
      exact members_onto ms hq hl5 h5
    refine ⟨y, f1, ?_, fun hs => ?_⟩
    · cases e2
      obtain ⟨y3, f3, hl3, hk⟩ := hl1.token e3
      refine ⟨y, ?_, y3, f3, rest hk hl3 h3⟩
      show Res.ok (y.key, y) = Res.ok (s1.key, y)
      rw [hl1.eq]; rfl
    · obtain ⟨s2', e2', s3', e3', h3'⟩ := h4 hs
      rcases hl1.ignoreChecked e2' with ⟨y2, f2, hl2⟩ | hlost
      · obtain ⟨y3, f3, hl3, hk⟩ := hl2.token e3'
        exact ⟨y2, f2, y3, f3, rest hk hl3 h3'⟩
      · exact absurd (hlost.next _ e3').1 (after_notLost t (fun _ h => members_notLost ms hq h) h3')
end
end

/-- A stream in a good state, in front of the bytes `bs`. -/
structure Stands (bs : Bytes) (i : IStr) : Prop where
  rest : i.rest = bs
  le : i.pos ≤ i.data.length
  eof : i.eof = false
  fail : i.fail = false

theorem Stands.eq {bs : Bytes} {i : IStr} (h : Stands bs i) : i = ⟨i.data.take i.pos ++ bs, (i.data.take i.pos).length, false, false, i.seekable⟩ := by
  obtain ⟨h1, h2, h3, h4⟩ := h
  cases i
  simp only [IStr.rest] at h1 h2 h3 h4
  subst h1 h3 h4
  simp only [List.take_append_drop, List.length_take, Nat.min_eq_left h2]

/-- A parser on a stream that stands in front of a document presents it, and ends right behind it. -/
theorem bson_stream_presents (t : BTree) (h : Storable32 t) (rest : Bytes) {i : IStr} (hi : Stands (bdoc t ++ rest) i) :
    ∃ s1, BsonS.ops.next (BsonS.ofStream (BsonP.rootKind t) i) = .ok (.DocStart, s1) ∧
      Presents BsonS.ops bsem t (fun s => ∃ s', BsonS.ops.next s = .ok (.DocEnd, s') ∧ Stands rest s'.inp) s1 := by
  obtain ⟨p1, e1, p2, e2, h2⟩ := BsonP.bdoc_presents BsonP.skipper_checked t h rest
  have hl := live_start False (i.data.take i.pos) (bdoc t ++ rest) (BsonP.rootKind t) (fun h => h.elim) i.seekable
  rw [← hi.eq] at hl
  obtain ⟨s1, f1, hl1, -⟩ := hl.token e1
  obtain ⟨s2, f2, hl2, hk⟩ := hl1.token e2
  have hq : NotBLost (fun s : BsonP => ∃ s', s.getNextToken = .ok (.DocEnd, s') ∧ BIn rest s'.inp) := by
    rintro s ⟨s', e, -⟩ hlost
    exact (hlost.next _ e).2.2 rfl
  refine ⟨s1, f1, s2, f2, after_mono BsonS.ops bsem t ?_ (after_onto t hq hk hl2 h2)⟩
  rintro s ⟨p, ⟨p', e, hb⟩, hl⟩
  obtain ⟨s', f, hl', -⟩ := hl.token e
  refine ⟨s', f, ?_, ?_, hl'.inp.eof, hl'.inp.fail⟩
  · rw [IStr.rest, hl'.inp.rest]
    exact hb.rest
  · have := hl'.inp.le
    rw [hl'.inp.data, hl'.inp.pos, List.length_append]
    omega

/-- The import of a document from a stream that stands in front of it. -/
theorem bson_stream_import_match (env : Env) (cfg : Cfg) (t : BTree) (h : Storable32 t) (rest : Bytes) (ty : Ty) (hb : bsonBase env ty = BsonP.rootKind t) (old : Val)
    {i : IStr} (hi : Stands (bdoc t ++ rest) i) :
    Match (Sk cfg (t.skippable bsem)) (fun s => Stands rest s.inp)
      (importValue BsonS.ops env cfg ty old (PI.init (BsonS.ofStream (bsonBase env ty) i))) (imp bsem env cfg t ty old) := by
  obtain ⟨s1, h1, h2⟩ := bson_stream_presents t h rest hi
  rw [hb]
  exact import_refines BsonS.ops bsem env cfg (s := BsonS.ofStream (BsonP.rootKind t) i) h1 h2 ty old

/-- A document is imported from a stream as from a string, and the stream is then right behind it. -/
theorem bson_stream_doc (env : Env) (cfg : Cfg) (t : BTree) (h : Storable32 t) (rest : Bytes) (ty : Ty) (hb : bsonBase env ty = BsonP.rootKind t) (old : Val)
    {i : IStr} (hi : Stands (bdoc t ++ rest) i) :
    (∃ v i', imp bsem env cfg t ty old = .ok v ∧ bsonStreamImport env cfg ty old i = .ok (v, i') ∧ Stands rest i') ∨
    (∃ e, imp bsem env cfg t ty old = .throw e ∧ bsonStreamImport env cfg ty old i = .throw e) ∨
    (imp bsem env cfg t ty old = .ub ∧ bsonStreamImport env cfg ty old i = .ub) := by
  have hm := bson_stream_import_match env cfg t h rest ty hb old hi
  unfold bsonStreamImport
  cases he : imp bsem env cfg t ty old with
  | ok a => rw [he] at hm; obtain ⟨s, e, hs⟩ := hm; rw [e]; exact .inl ⟨a, s.inp, rfl, rfl, hs⟩
  | throw e => rw [he] at hm; rw [show importValue _ _ _ _ _ _ = _ from hm]; exact .inr (.inl ⟨e, rfl, rfl⟩)
  | ub => rw [he] at hm; rw [hm (fun _ => bskippable t)]; exact .inr (.inr ⟨rfl, rfl⟩)

end Thors
