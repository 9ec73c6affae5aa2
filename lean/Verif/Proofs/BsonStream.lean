import Verif.Model.BsonStream
import Verif.Proofs.BsonShort
import Verif.Proofs.BsonExport
import Verif.Proofs.JsonString
import Verif.Proofs.Sim
/-
BSON from a stream and BSON from a string.
-/
namespace Thors
open StrIn

theorem Yields.ite {α : Type} {P : α → Prop} {c : Prop} [Decidable c] {r s : Res α} (h1 : Yields P r) (h2 : Yields P s) : Yields P (if c then r else s) := by
  split
  · exact h1
  · exact h2

/-- Two runs side by side: both succeed with related results, or each can only end in failure or in a state it cannot
recover from. -/
def Agree {α β : Type} (L : α → β → Prop) (D : α → Prop) (D' : β → Prop) (r : Res α) (r' : Res β) : Prop :=
  (∃ x y, r = .ok x ∧ r' = .ok y ∧ L x y) ∨ (Yields D r ∧ Yields D' r')

namespace Agree
variable {α β γ δ : Type} {L : α → β → Prop} {D : α → Prop} {D' : β → Prop} {L2 : γ → δ → Prop} {D2 : γ → Prop} {D2' : δ → Prop}
theorem ok {x : α} {y : β} (h : L x y) : Agree L D D' (.ok x) (.ok y) := .inl ⟨x, y, rfl, rfl, h⟩
theorem ub : Agree L D D' .ub .ub := .inr ⟨.ub, .ub⟩
theorem throwStd : Agree L D D' throwStd throwStd := .inr ⟨.throwStd, .throwStd⟩
theorem bind {r : Res α} {r' : Res β} {f : α → Res γ} {f' : β → Res δ} (h : Agree L D D' r r') (h1 : ∀ x y, L x y → Agree L2 D2 D2' (f x) (f' y))
    (h2 : ∀ x, D x → Yields D2 (f x)) (h3 : ∀ y, D' y → Yields D2' (f' y)) : Agree L2 D2 D2' (r >>= f) (r' >>= f') := by
  rcases h with ⟨x, y, e1, e2, hl⟩ | ⟨a, b⟩
  · rw [e1, e2]; exact h1 x y hl
  · exact .inr ⟨a.bind h2, b.bind h3⟩
/-- For runs that cannot be left in a dead state. -/
theorem bind0 {r : Res α} {r' : Res β} {f : α → Res γ} {f' : β → Res δ} (h : Agree L (fun _ => False) (fun _ => False) r r') (h1 : ∀ x y, L x y → Agree L2 D2 D2' (f x) (f' y)) :
    Agree L2 D2 D2' (r >>= f) (r' >>= f') := h.bind h1 (fun _ h => h.elim) (fun _ h => h.elim)
theorem mono {D1 : α → Prop} {D1' : β → Prop} {L1 : α → β → Prop} {r : Res α} {r' : Res β} (h : Agree L D D' r r') (h0 : ∀ x y, L x y → L1 x y) (h1 : ∀ x, D x → D1 x)
    (h2 : ∀ x, D' x → D1' x) : Agree L1 D1 D1' r r' := by
  rcases h with ⟨x, y, e1, e2, hl⟩ | ⟨a, b⟩
  · exact .inl ⟨x, y, e1, e2, h0 _ _ hl⟩
  · exact .inr ⟨a.mono h1, b.mono h2⟩
theorem ite {c : Prop} [Decidable c] {r s : Res α} {r' s' : Res β} (h1 : c → Agree L D D' r r') (h2 : ¬ c → Agree L D D' s s') :
    Agree L D D' (if c then r else s) (if c then r' else s') := by
  by_cases h : c
  · rw [if_pos h, if_pos h]; exact h1 h
  · rw [if_neg h, if_neg h]; exact h2 h
end Agree

theorem leNat_small : ∀ bs : Bytes, (∀ b ∈ bs, b.toNat < 128) → 2 * leNat bs < 2 ^ (8 * bs.length)
  | [], _ => by simp [leNat]
  | b :: bs, h => by
    have h1 := leNat_small bs fun x hx => h x (List.mem_cons_of_mem _ hx)
    have h2 := h b List.mem_cons_self
    have e : 2 ^ (8 * (bs.length + 1)) = 2 ^ (8 * bs.length) * 256 := by rw [Nat.mul_add, Nat.pow_add]
    rw [leNat, List.length_cons, e]
    omega

theorem leInt_nonneg (bs : Bytes) (h : ∀ b ∈ bs, b.toNat < 128) : 0 ≤ leInt bs := by
  have := leNat_small bs h
  unfold leInt
  rw [if_neg (by omega)]
  omega

/-- The stream holds the string behind `pre`, at the same place. -/
structure SameInput (w : Prop) (pre : Bytes) (a : StrIn) (i : IStr) : Prop where
  data : i.data = pre ++ a.data
  pos : i.pos = pre.length + a.pos
  le : a.pos ≤ a.data.length
  eof : i.eof = false
  fail : i.fail = false
  small : w → ∀ b ∈ a.data, b.toNat < 128

namespace SameInput
variable {w : Prop} {pre : Bytes} {a : StrIn} {i : IStr}

theorem rest (h : SameInput w pre a i) : i.data.drop i.pos = a.data.drop a.pos := by
  rw [h.data, h.pos, ← List.drop_drop, List.drop_left]

theorem good (h : SameInput w pre a i) : i.good = true := by simp [IStr.good, h.eof, h.fail]

theorem read_enough (h : SameInput w pre a i) {n : Nat} (hn : a.pos + n ≤ a.data.length) : ∃ a' i',
    a.read n = .ok ((a.data.drop a.pos).take n, true, a') ∧ i.read n = ((a.data.drop a.pos).take n, true, i') ∧ SameInput w pre a' i' ∧
      ((a.data.drop a.pos).take n).length = n := by
  have hl : ((a.data.drop a.pos).take n).length = n := by rw [List.length_take, List.length_drop]; omega
  refine ⟨{ a with pos := a.pos + n, good := true }, { i with pos := i.pos + n }, ?_, ?_, ⟨h.data, ?_, ?_, h.eof, h.fail, h.small⟩, hl⟩
  · unfold StrIn.read
    rw [if_neg (by omega)]
    simp only [hl]
    rw [decide_eq_true hn]
  · unfold IStr.read
    rw [if_neg (by rw [h.good]; decide), h.rest]
    simp only [hl, if_pos]
  · dsimp only; rw [h.pos]; omega
  · exact hn

theorem read_short (h : SameInput w pre a i) {n : Nat} (hn : a.data.length < a.pos + n) : ∃ got a' i',
    a.read n = .ok (got, true, a') ∧ i.read n = (got, false, i') ∧ got.length < n ∧ a'.data = a.data ∧ a'.pos = a.data.length := by
  have hl : ((a.data.drop a.pos).take n).length = a.data.length - a.pos := by rw [List.length_take, List.length_drop]; omega
  have := h.le
  refine ⟨(a.data.drop a.pos).take n, { a with pos := a.data.length, good := true }, { i with pos := i.data.length, eof := true, fail := true }, ?_, ?_,
    by omega, rfl, rfl⟩
  · unfold StrIn.read
    rw [if_neg (by omega)]
    simp only [hl]
    rw [show a.pos + (a.data.length - a.pos) = a.data.length by omega, decide_eq_true (Nat.le_refl _)]
  · unfold IStr.read
    rw [if_neg (by rw [h.good]; decide), h.rest]
    simp only [hl]
    rw [if_neg (by omega)]

/-- What `readLE` gives on both sides. -/
theorem readLE (h : SameInput w pre a i) {n : Nat} :
    Agree (fun x y => x.1 = y.1 ∧ SameInput w pre x.2 y.2 ∧ (w → 0 ≤ x.1)) (fun _ => False) (fun _ => False) (Thors.readLE n a) (i.readLE n) := by
  unfold Thors.readLE IStr.readLE
  by_cases hn : a.pos + n ≤ a.data.length
  · obtain ⟨a', i', e1, e2, hs, hl⟩ := h.read_enough hn
    rw [e1, e2]
    simp only [Res.ok_bind, hl, Nat.lt_irrefl, if_false]
    refine .ok ⟨rfl, hs, fun hw => ?_⟩
    exact leInt_nonneg _ fun b hb => h.small hw b (List.mem_of_mem_drop (List.mem_of_mem_take hb))
  · obtain ⟨got, a', i', e1, e2, hl, -⟩ := h.read_short (Nat.lt_of_not_le hn)
    rw [e1, e2]
    simp only [Res.ok_bind, if_pos hl]
    exact .ub

theorem readTo_found (h : SameInput w pre a i) (hd : a.pos + upTo 0x00 (a.data.drop a.pos) < a.data.length) : ∃ k a' i',
    a.readTo 0x00 = .ok (k, true, a') ∧ i.getline 0x00 = (some k, true, i') ∧ SameInput w pre a' i' := by
  have hle := h.le
  have hlen : i.data.length = pre.length + a.data.length := by rw [h.data, List.length_append]
  refine ⟨(a.data.drop a.pos).take (upTo 0x00 (a.data.drop a.pos)), { a with pos := a.pos + (upTo 0x00 (a.data.drop a.pos) + 1), good := true },
    { i with pos := i.pos + (upTo 0x00 (a.data.drop a.pos) + 1) }, ?_, ?_, ⟨h.data, ?_, ?_, h.eof, h.fail, h.small⟩⟩
  · unfold StrIn.readTo
    rw [if_neg (by omega)]
    dsimp only
    rw [decide_eq_true (by omega)]
  · unfold IStr.getline
    rw [if_neg (by simp [h.good]), h.rest]
    dsimp only
    rw [if_pos (by rw [h.pos, hlen]; omega)]
  · dsimp only; rw [h.pos]; omega
  · dsimp only; omega

theorem readTo_lost (h : SameInput w pre a i) (hd : ¬ a.pos + upTo 0x00 (a.data.drop a.pos) < a.data.length) : ∃ k a' key good i',
    a.readTo 0x00 = .ok (k, false, a') ∧ i.getline 0x00 = (key, good, i') ∧ i'.good = false := by
  have hle := h.le
  have hlen : i.data.length = pre.length + a.data.length := by rw [h.data, List.length_append]
  refine ⟨(a.data.drop a.pos).take (upTo 0x00 (a.data.drop a.pos)), { a with pos := a.pos + (upTo 0x00 (a.data.drop a.pos) + 1), good := false },
    (i.getline 0).1, (i.getline 0).2.1, (i.getline 0).2.2, ?_, rfl, ?_⟩
  · unfold StrIn.readTo
    rw [if_neg (by omega)]
    dsimp only
    rw [decide_eq_false (by omega)]
  · unfold IStr.getline
    rw [if_neg (by simp [h.good]), h.rest]
    dsimp only
    rw [if_neg (by rw [h.pos, hlen]; omega)]
    split <;> simp [IStr.good]

end SameInput

/-- The state of the parser on a stream, with that of the parser on a string. -/
def BsonP.onto (s : BsonP) (i : IStr) : BsonS := ⟨i, s.conts, s.left, s.size, s.next, s.key, s.type, s.skip⟩

/-- The two parsers are in the same state. -/
structure BLive (w : Prop) (pre : Bytes) (s : BsonP) (s' : BsonS) : Prop where
  eq : s' = s.onto s'.inp
  inp : SameInput w pre s.inp s'.inp
  value : s.skip = true → s.next = .Value

/-- The string is exhausted inside of a document. -/
structure BLost (s : BsonP) : Prop where
  inp : s.inp.data.length ≤ s.inp.pos
  docEnd : s.next = .DocEnd → s.conts.head? = some .Value
  value : s.skip = true → s.next = .Value

/-- The stream is exhausted inside of a document. -/
structure BLost' (s : BsonS) : Prop where
  inp : s.inp.good = false
  docEnd : s.next = .DocEnd → s.conts.head? = some .Value
  value : s.skip = true → s.next = .Value

namespace BLive
variable {w : Prop} {pre : Bytes} {s : BsonP} {s' : BsonS}

/-- Both parsers go on from related inputs with the same other members. -/
theorem mk' {s : BsonP} {i : IStr} (h : SameInput w pre s.inp i) (hv : s.skip = true → s.next = .Value) : BLive w pre s (s.onto i) := ⟨rfl, h, hv⟩

theorem use (h : BLive w pre s s') (n : Int) : Agree (fun x y => BLive w pre x y ∧ x.next = s.next ∧ x.skip = s.skip ∧ x.conts = s.conts ∧ x.type = s.type)
    (fun _ => False) (fun _ => False) (s.use n) (s'.use n) := by
  obtain ⟨e, hi, hv⟩ := h
  rw [e]
  unfold BsonP.use BsonS.use BsonP.onto
  dsimp only
  cases s.left with
  | nil => exact .ub
  | cons l ls => exact .ok ⟨⟨rfl, hi, hv⟩, rfl, rfl, rfl, rfl⟩

theorem endToken (h : BLive w pre s s') : s'.endToken = s.endToken := by
  rw [h.eq]; rfl

theorem settle (h : BLive w pre s s') : Agree (fun x y => BLive w pre x y ∧ x.skip = false) (fun _ => False) (fun _ => False) s.settle s'.settle := by
  have he := h.endToken
  obtain ⟨e, hi, hv⟩ := h
  unfold BsonP.settle BsonS.settle
  rw [he]
  have hs : s'.skip = s.skip := by rw [e]; rfl
  rw [hs]
  cases hk : s.skip with
  | false =>
    simp only [Bool.false_eq_true, if_false]
    exact .ok ⟨⟨e, hi, hv⟩, hk⟩
  | true =>
    simp only [if_true]
    cases s.endToken with
    | ub => exact .ub
    | throw x => exact .inr ⟨.throw, .throw⟩
    | ok t =>
      simp only [Res.ok_bind]
      cases t with
      | none =>
        refine .ok ⟨⟨?_, hi, by simp⟩, rfl⟩
        rw [e]; rfl
      | some t =>
        refine .ok ⟨⟨?_, hi, by simp⟩, rfl⟩
        rw [e]; rfl

theorem readEnd (h : BLive w pre s s') : Agree (fun x y => BLive w pre x y ∧ x.next = s.next ∧ x.skip = s.skip ∧ x.conts = s.conts)
    (fun _ => False) (fun _ => False) s.readEnd s'.readEnd := by
  obtain ⟨e, hi, hv⟩ := h
  unfold BsonP.readEnd BsonS.readEnd
  by_cases hn : s.inp.pos + 1 ≤ s.inp.data.length
  · obtain ⟨a', i', e1, e2, hs, hl⟩ := hi.read_enough hn
    rw [e1, e2]
    simp only [Res.ok_bind, Bool.true_eq_false, if_false]
    have hl' : BLive w pre { s with inp := a' } { s' with inp := i' } := ⟨by rw [e]; rfl, hs, hv⟩
    refine (hl'.use 1).bind0 ?_
    rintro x y ⟨hL, h1, h2, h3, h4⟩
    exact .ite (fun _ => .throwStd) fun _ => .ok ⟨hL, h1, h2, h3⟩
  · obtain ⟨got, a', i', e1, e2, hl, -⟩ := hi.read_short (Nat.lt_of_not_le hn)
    rw [e1, e2]
    simp only [Res.ok_bind, Bool.true_eq_false, if_false, if_true]
    have : got = [] := List.length_eq_zero_iff.1 (by omega)
    subst this
    refine .inr ⟨?_, .throwStd⟩
    intro x hx
    obtain ⟨s1, -, h2⟩ := Res.bind_ok hx
    rw [if_pos (by decide)] at h2
    cases h2

theorem readKey (h : BLive w pre s s') : Agree (fun x y => BLive w pre x y ∧ x.next = s.next ∧ x.skip = s.skip ∧ x.conts = s.conts)
    (fun _ => False) (fun y => y.inp.good = false ∧ y.conts = s.conts ∧ y.skip = s.skip) s.readKey s'.readKey := by
  obtain ⟨e, hi, hv⟩ := h
  unfold BsonP.readKey BsonS.readKey
  by_cases hn : s.inp.pos + 1 ≤ s.inp.data.length
  · obtain ⟨a', i', e1, e2, hs, hl⟩ := hi.read_enough hn
    rw [e1, e2]
    simp only [Res.ok_bind, Bool.true_eq_false, if_false]
    generalize hg : (s.inp.data.drop s.inp.pos).take 1 = got at *
    by_cases hd : a'.pos + upTo 0x00 (a'.data.drop a'.pos) < a'.data.length
    · obtain ⟨k, a2, i2, e3, e4, hs2⟩ := hs.readTo_found hd
      rw [e3, e4]
      simp only [Res.ok_bind, Bool.true_eq_false, if_false, Option.getD_some]
      refine ((BLive.use (s := { s with inp := a2, type := got.headD s.type, key := k }) ⟨?_, hs2, hv⟩ _).mono ?_ (fun _ h => h) (fun _ h => h.elim))
      · rw [e]; rfl
      · rintro x y ⟨h1, h2, h3, h4, h5⟩
        exact ⟨h1, h2, h3, h4⟩
    · obtain ⟨k, a2, key, good, i2, e3, e4, hs2⟩ := hs.readTo_lost hd
      rw [e3, e4]
      simp only [Res.ok_bind, if_true]
      refine .inr ⟨.throwStd, ?_⟩
      split
      · exact .throwStd
      · unfold BsonS.use
        have hc : s'.conts = s.conts := by rw [e]; rfl
        have hk' : s'.skip = s.skip := by rw [e]; rfl
        split
        · exact .ub
        · exact .ok ⟨hs2, hc, hk'⟩
  · obtain ⟨got, a', i', e1, e2, hl, ed, ep⟩ := hi.read_short (Nat.lt_of_not_le hn)
    rw [e1, e2]
    simp only [Res.ok_bind, Bool.true_eq_false, if_false, if_true]
    refine .inr ⟨?_, .throwStd⟩
    intro x hx
    obtain ⟨⟨key, good, inp⟩, h1, h2⟩ := Res.bind_ok hx
    unfold StrIn.readTo at h1
    rw [if_neg (by rw [ed, ep]; omega)] at h1
    cases h1
    rw [if_pos (by simp [ed, ep])] at h2
    cases h2

theorem openLevel (h : BLive w pre s s') : Agree (fun x y => BLive w pre x y ∧ x.next = s.next ∧ x.skip = s.skip ∧ x.conts = s.conts)
    (fun _ => False) (fun _ => False) s.openLevel s'.openLevel := by
  obtain ⟨e, hi, hv⟩ := h
  unfold BsonP.openLevel BsonS.openLevel
  refine hi.readLE.bind0 ?_
  rintro ⟨n, a⟩ ⟨m, i⟩ ⟨h1, h2, -⟩
  dsimp only at h1 h2
  subst h1
  exact .ok ⟨⟨by rw [e]; rfl, h2, hv⟩, rfl, rfl, rfl⟩

theorem onto (h : BLive w pre s s') : ∃ i, s' = s.onto i ∧ SameInput w pre s.inp i := ⟨s'.inp, h.eq, h.inp⟩

/-- What both parsers give for a token. -/
def Tokens (w : Prop) (pre : Bytes) (x : Tok × BsonP) (y : Tok × BsonS) : Prop := x.1 = y.1 ∧ BLive w pre x.2 y.2 ∧ (x.1 = .Value → x.2.skip = true)

/-- The end of a container, after its last byte. -/
theorem closed (hl : BLive w pre s s') (hk : s.skip = false) (tok : Tok) (ht : tok ≠ .Value) : Agree (Tokens w pre) (fun _ => False) (fun _ => False)
    (match s.conts, s.left, s.size with
    | [_], _ :: ls, _ :: zs => (return (tok, { s with conts := [], left := ls, size := zs, next := .DocEnd }) : Res (Tok × BsonP))
    | _ :: c :: cs, _ :: l :: ls, z :: zs => do
      let s := { s with conts := c :: cs, left := (l - z) :: ls, size := zs }
      match ← s.endToken with
      | some t => return (tok, { s with next := t })
      | none => return (tok, { s with next := .Key })
    | _, _, _ => .ub)
    (match s'.conts, s'.left, s'.size with
    | [_], _ :: ls, _ :: zs => (return (tok, { s' with conts := [], left := ls, size := zs, next := .DocEnd }) : Res (Tok × BsonS))
    | _ :: c :: cs, _ :: l :: ls, z :: zs => do
      let s := { s' with conts := c :: cs, left := (l - z) :: ls, size := zs }
      match ← s.endToken with
      | some t => return (tok, { s with next := t })
      | none => return (tok, { s with next := .Key })
    | _, _, _ => .ub) := by
  rw [show s'.left = s.left by rw [hl.eq]; rfl, show s'.conts = s.conts by rw [hl.eq]; rfl, show s'.size = s.size by rw [hl.eq]; rfl]
  have hv : ∀ {x : Tok}, s.skip = true → x = Tok.Value := fun e => absurd e (by simp [hk])
  split
  · exact .ok ⟨rfl, ⟨by rw [hl.eq]; rfl, hl.inp, hv⟩, fun e => absurd e ht⟩
  · rename_i c cs z l ls z2 zs _ _ _
    have hl2 : BLive w pre { s with conts := c :: cs, left := (l - z2) :: ls, size := zs } { s' with conts := c :: cs, left := (l - z2) :: ls, size := zs } :=
      ⟨by rw [hl.eq]; rfl, hl.inp, hl.value⟩
    have he := hl2.endToken
    dsimp only
    rw [he]
    cases BsonP.endToken { s with conts := c :: cs, left := (l - z2) :: ls, size := zs } with
    | ub => exact .ub
    | throw x => exact .inr ⟨.throw, .throw⟩
    | ok t =>
      simp only [Res.ok_bind]
      cases t with
      | none => exact .ok ⟨rfl, ⟨by rw [hl.eq]; rfl, hl.inp, hv⟩, fun e => absurd e ht⟩
      | some t => exact .ok ⟨rfl, ⟨by rw [hl.eq]; rfl, hl.inp, hv⟩, fun e => absurd e ht⟩
  · exact .ub

theorem handOut (h : BLive w pre s s') (hk : s.skip = false) : Agree (Tokens w pre) (fun _ => False) (fun _ => False) s.handOut s'.handOut := by
  have hne : s'.next = s.next := by rw [h.eq]; rfl
  have hco : s'.conts = s.conts := by rw [h.eq]; rfl
  unfold BsonP.handOut BsonS.handOut
  rw [hne]
  cases hn : s.next with
  | DocStart =>
    dsimp only
    rw [hco]
    cases hc : s.conts with
    | nil => exact .ub
    | cons c cs =>
      cases c with
      | Map => exact .ok ⟨rfl, ⟨by rw [h.eq]; rfl, h.inp, fun e => absurd e (by simp [hk])⟩, by simp⟩
      | Array => exact .ok ⟨rfl, ⟨by rw [h.eq]; rfl, h.inp, fun e => absurd e (by simp [hk])⟩, by simp⟩
      | Value =>
        refine Agree.bind0 (L := fun x y => BLive w pre x y) ((openLevel ⟨?_, ?_, ?_⟩).mono (fun x y h => h.1) (fun _ h => h) (fun _ h => h)) ?_
        · rw [h.eq]; rfl
        · exact h.inp
        · exact fun e => absurd e (by simp [hk])
        · intro x y hl
          exact .ok ⟨rfl, hl, by simp⟩
  | DocEnd =>
    dsimp only
    rw [hco]
    have fin : ∀ {x : BsonP} {y : BsonS}, BLive w pre x y → x.skip = false →
        Tokens w pre (.DocEnd, { x with next := .Error }) (.DocEnd, { y with next := .Error }) := fun hl hk =>
      ⟨rfl, ⟨by rw [hl.eq]; rfl, hl.inp, fun e => absurd e (by simp [hk])⟩, by simp⟩
    refine .ite (fun _ => h.readEnd.bind0 fun x y hl => .ok (fin hl.1 (by rw [hl.2.2.1]; exact hk))) fun _ => .ok (fin h hk)
  | MapStart =>
    dsimp only
    refine h.openLevel.bind0 ?_
    rintro x y ⟨hl, h1, h2, h3⟩
    rw [show y.left = x.left by rw [hl.eq]; rfl, show y.conts = x.conts by rw [hl.eq]; rfl]
    have hk2 : x.skip = false := by rw [h2]; exact hk
    cases x.left with
    | nil => exact .ub
    | cons l ls =>
      cases x.conts with
      | nil => exact .ite (fun _ => .ub) fun _ => .ok ⟨rfl, ⟨by rw [hl.eq]; rfl, hl.inp, fun e => absurd e (by simp [hk2])⟩, by simp⟩
      | cons c cs =>
        refine .ite (fun _ => .ok ⟨rfl, ⟨by rw [hl.eq]; rfl, hl.inp, fun e => absurd e (by simp [hk2])⟩, by simp⟩) fun _ =>
          .ok ⟨rfl, ⟨by rw [hl.eq]; rfl, hl.inp, fun e => absurd e (by simp [hk2])⟩, by simp⟩
  | ArrayStart =>
    dsimp only
    refine h.openLevel.bind0 ?_
    rintro x y ⟨hl, h1, h2, h3⟩
    rw [show y.left = x.left by rw [hl.eq]; rfl, show y.conts = x.conts by rw [hl.eq]; rfl]
    have hk2 : x.skip = false := by rw [h2]; exact hk
    cases x.left with
    | nil => exact .ub
    | cons l ls =>
      cases x.conts with
      | nil => exact .ite (fun _ => .ub) fun _ => .ok ⟨rfl, ⟨by rw [hl.eq]; rfl, hl.inp, fun e => absurd e (by simp [hk2])⟩, by simp⟩
      | cons c cs =>
        refine .ite (fun _ => .ok ⟨rfl, ⟨by rw [hl.eq]; rfl, hl.inp, fun e => absurd e (by simp [hk2])⟩, by simp⟩) fun _ =>
          .ok ⟨rfl, ⟨by rw [hl.eq]; rfl, hl.inp, fun e => absurd e (by simp [hk2])⟩, by simp⟩
  | Value => exact .ok ⟨rfl, ⟨by rw [h.eq]; rfl, h.inp, fun _ => rfl⟩, fun _ => rfl⟩
  | Key => exact .throwStd
  | Error => exact .throwStd
  | MapEnd =>
    dsimp only
    refine h.readEnd.bind0 ?_
    rintro x y ⟨hl, h1, h2, h3⟩
    exact closed hl (by rw [h2]; exact hk) _ (by decide)
  | ArrayEnd =>
    dsimp only
    refine h.readEnd.bind0 ?_
    rintro x y ⟨hl, h1, h2, h3⟩
    exact closed hl (by rw [h2]; exact hk) _ (by decide)

end BLive

/-! ### Parsers that have run out of data -/

namespace BLost
variable {s : BsonP}

theorem readLE {n : Nat} (hn : 0 < n) (h : BLost s) {P : Int × StrIn → Prop} : Yields P (Thors.readLE n s.inp) := by
  rintro ⟨v, i⟩ e
  have := (BsonP.readLE_ok hn e).1
  have := h.inp
  omega

theorem readEnd (h : BLost s) {P : BsonP → Prop} : Yields P s.readEnd := by
  intro x e
  have := (BsonP.readEnd_ok e).1
  have := h.inp
  omega

theorem readKey (h : BLost s) {P : BsonP → Prop} : Yields P s.readKey := by
  intro x e
  have := (BsonP.readKey_ok e).1
  have := h.inp
  omega

theorem openLevel (h : BLost s) {P : BsonP → Prop} : Yields P s.openLevel := by
  unfold BsonP.openLevel
  exact Yields.bind (h.readLE (by decide) (P := fun _ => False)) fun _ h => h.elim

theorem handOut (h : BLost s) (hk : s.skip = false) : Yields (fun x => BLost x.2 ∧ (x.1 = .Value → x.2.skip = true) ∧ x.1 ≠ .DocEnd) s.handOut := by
  unfold BsonP.handOut
  split
  · split
    · exact .ub
    · exact .ok ⟨⟨h.inp, by simp, fun e => absurd e (by simp [hk])⟩, by simp, by simp⟩
    · exact .ok ⟨⟨h.inp, by simp, fun e => absurd e (by simp [hk])⟩, by simp, by simp⟩
    · refine Yields.bind (P := fun _ => False) ?_ fun _ h => h.elim
      exact openLevel (s := { s with next := .Key, conts := .Value :: s.conts }) ⟨h.inp, by simp, fun e => absurd e (by simp [hk])⟩
  · rename_i hn
    rw [if_pos (h.docEnd hn)]
    exact Yields.bind (P := fun _ => False) h.readEnd fun _ h => h.elim
  · exact Yields.bind (P := fun _ => False) h.openLevel fun _ h => h.elim
  · exact Yields.bind (P := fun _ => False) h.openLevel fun _ h => h.elim
  · exact Yields.bind (P := fun _ => False) h.readEnd fun _ h => h.elim
  · exact Yields.bind (P := fun _ => False) h.readEnd fun _ h => h.elim
  · rename_i hn
    exact .ok ⟨⟨h.inp, h.docEnd, fun _ => hn⟩, fun _ => rfl, by simp⟩
  · exact .throwStd

theorem settle (h : BLost s) : Yields (fun x => BLost x ∧ x.skip = false) s.settle := by
  unfold BsonP.settle
  cases hk : s.skip with
  | false => exact .ok ⟨h, hk⟩
  | true =>
    simp only [if_true]
    refine Yields.bind (P := fun t => t = some .DocEnd → s.conts.head? = some .Value) ?_ ?_
    · intro t e
      unfold BsonP.endToken at e
      split at e
      · cases e
      split at e
      · split at e
        · cases e
        · cases e; simp
        · cases e; simp
        · rename_i hc; cases e; simp [hc]
      · cases e; simp
    · rintro (_ | t) ht
      · exact .ok ⟨⟨h.inp, by simp, by simp⟩, rfl⟩
      · exact .ok ⟨⟨h.inp, fun e => ht (by rw [show t = Tok.DocEnd from e]), by simp⟩, rfl⟩

theorem next (h : BLost s) : Yields (fun x => BLost x.2 ∧ (x.1 = .Value → x.2.skip = true) ∧ x.1 ≠ .DocEnd) s.getNextToken := by
  unfold BsonP.getNextToken
  refine h.settle.bind ?_
  rintro s ⟨h, hk⟩
  split
  · exact Yields.bind (P := fun _ => False) h.readKey fun _ h => h.elim
  · exact h.handOut hk

theorem readInt {n : Nat} (hn : 0 < n) (h : BLost s) {P : Int × BsonP → Prop} : Yields P (s.readInt n) := by
  unfold BsonP.readInt
  refine Yields.bind (P := fun x => BLost x) ?_ ?_
  · intro x e
    obtain ⟨l, ls, -, rfl⟩ := BsonP.use_ok e
    exact ⟨h.inp, h.docEnd, h.value⟩
  · intro x hx
    exact Yields.bind (P := fun _ => False) (hx.readLE hn) fun _ h => h.elim

theorem readDouble (h : BLost s) {P : Flt × BsonP → Prop} : Yields P s.readDouble := by
  unfold BsonP.readDouble
  rintro x e
  obtain ⟨⟨got, good, inp⟩, h1, h2⟩ := Res.bind_ok e
  obtain ⟨a, b, c, d, e⟩ := BsonP.read_ok (by decide) h1
  have := h.inp
  dsimp only at h2
  split at h2
  · cases h2
  obtain ⟨s1, h3, h4⟩ := Res.bind_ok h2
  rw [if_pos (by omega)] at h4
  cases h4

theorem readBool (h : BLost s) {P : Bool × BsonP → Prop} : Yields P s.readBool := by
  unfold BsonP.readBool
  rintro x e
  obtain ⟨⟨got, good, inp⟩, h1, h2⟩ := Res.bind_ok e
  obtain ⟨a, b, c, d, e⟩ := BsonP.read_ok (by decide) h1
  have := h.inp
  dsimp only at h2
  split at h2
  · cases h2
  obtain ⟨s1, h3, h4⟩ := Res.bind_ok h2
  have : got = [] := List.length_eq_zero_iff.1 (by omega)
  subst this
  cases h4

theorem readString {dst : Bytes} (h : BLost s) {P : Bytes × BsonP → Prop} : Yields P (s.readString dst) := by
  unfold BsonP.readString
  exact Yields.bind (P := fun _ => False) (h.readLE (by decide)) fun _ h => h.elim

theorem getInt (k : IntKind) (h : BLost s) {P : Int × BsonP → Prop} : Yields P (s.getInt k) := by
  unfold BsonP.getInt
  split
  · exact Yields.bind (P := fun _ => False) (h.readInt (by decide)) fun _ h => h.elim
  split
  · exact Yields.bind (P := fun _ => False) (h.readInt (by decide)) fun _ h => h.elim
  · exact .throwStd

theorem getFlt (f : FKind) (h : BLost s) {P : Flt × BsonP → Prop} : Yields P (s.getFlt f) := by
  unfold BsonP.getFlt
  split
  · exact Yields.bind (P := fun _ => False) (h.readInt (by decide)) fun _ h => h.elim
  split
  · exact Yields.bind (P := fun _ => False) (h.readInt (by decide)) fun _ h => h.elim
  split
  · exact Yields.bind (P := fun _ => False) h.readDouble fun _ h => h.elim
  · exact .throwStd

theorem getBool (h : BLost s) {P : Bool × BsonP → Prop} : Yields P s.getBool := by
  unfold BsonP.getBool
  split
  · exact .throwStd
  · exact h.readBool

theorem getStr (h : BLost s) {P : Bytes × BsonP → Prop} : Yields P s.getStr := by
  unfold BsonP.getStr
  split
  · exact .throwStd
  · exact h.readString

theorem ignoreBytes {n : Nat} (h : BLost s) : Yields BLost (s.ignoreBytes n) := by
  intro x e
  obtain ⟨l, ls, -, rfl⟩ := BsonP.use_ok e
  refine ⟨?_, h.docEnd, h.value⟩
  have := h.inp
  simp only [StrIn.ignoreInt]
  rw [if_pos (by omega)]
  omega

theorem ignoreSized {n : Int} (h : BLost s) : Yields BLost (s.ignoreSized n) := by
  unfold BsonP.ignoreSized
  exact Yields.bind (P := fun _ => False) (h.readLE (by decide)) fun _ h => h.elim

theorem ignoreData (h : BLost s) : Yields BLost s.ignoreDataValue := by
  unfold BsonP.ignoreDataValue
  have mv : ∀ n : Nat, Yields BLost (s.ignoreBytes n) := fun n => h.ignoreBytes
  exact .ite (.ok h) <| .ite (mv 8) <| .ite (mv 16) <| .ite (mv 4) <| .ite (mv 8) <| .ite (mv 12) <| .ite (mv 1) <| .ite (mv 8) <| .ite (mv 8) <|
    .ite (.ok h) <| .ite h.ignoreSized <| .ite h.ignoreSized .throwStd

end BLost

namespace BLost'
variable {s : BsonS}

theorem read {n : Nat} {i : IStr} (h : i.good = false) : i.read n = ([], false, { i with fail := true }) := by
  unfold IStr.read
  rw [if_pos h]

theorem readLE {n : Nat} {i : IStr} (hn : 0 < n) (h : i.good = false) {P : Int × IStr → Prop} : Yields P (i.readLE n) := by
  unfold IStr.readLE
  rw [read h]
  dsimp only
  rw [if_pos (by simpa using hn)]
  exact .ub

theorem readEnd (h : s.inp.good = false) {P : BsonS → Prop} : Yields P s.readEnd := by
  unfold BsonS.readEnd
  rw [read h]
  exact .throwStd

theorem readKey (h : s.inp.good = false) {P : BsonS → Prop} : Yields P s.readKey := by
  unfold BsonS.readKey
  rw [read h]
  exact .throwStd

theorem openLevel (h : s.inp.good = false) {P : BsonS → Prop} : Yields P s.openLevel := by
  unfold BsonS.openLevel
  exact Yields.bind (readLE (by decide) h (P := fun _ => False)) fun _ h => h.elim

theorem handOut (h : BLost' s) (hk : s.skip = false) : Yields (fun x => BLost' x.2 ∧ (x.1 = .Value → x.2.skip = true) ∧ x.1 ≠ .DocEnd) s.handOut := by
  unfold BsonS.handOut
  split
  · split
    · exact .ub
    · exact .ok ⟨⟨h.inp, by simp, fun e => absurd e (by simp [hk])⟩, by simp, by simp⟩
    · exact .ok ⟨⟨h.inp, by simp, fun e => absurd e (by simp [hk])⟩, by simp, by simp⟩
    · refine Yields.bind (P := fun _ => False) ?_ fun _ h => h.elim
      exact openLevel (s := { s with next := .Key, conts := .Value :: s.conts }) h.inp
  · rename_i hn
    rw [if_pos (h.docEnd hn)]
    exact Yields.bind (P := fun _ => False) (readEnd h.inp) fun _ h => h.elim
  · exact Yields.bind (P := fun _ => False) (openLevel h.inp) fun _ h => h.elim
  · exact Yields.bind (P := fun _ => False) (openLevel h.inp) fun _ h => h.elim
  · exact Yields.bind (P := fun _ => False) (readEnd h.inp) fun _ h => h.elim
  · exact Yields.bind (P := fun _ => False) (readEnd h.inp) fun _ h => h.elim
  · rename_i hn
    exact .ok ⟨⟨h.inp, h.docEnd, fun _ => hn⟩, fun _ => rfl, by simp⟩
  · exact .throwStd

theorem settle (h : BLost' s) : Yields (fun x => BLost' x ∧ x.skip = false) s.settle := by
  unfold BsonS.settle
  cases hk : s.skip with
  | false => exact .ok ⟨h, hk⟩
  | true =>
    simp only [if_true]
    refine Yields.bind (P := fun t => t = some .DocEnd → s.conts.head? = some .Value) ?_ ?_
    · intro t e
      unfold BsonS.endToken at e
      split at e
      · cases e
      split at e
      · split at e
        · cases e
        · cases e; simp
        · cases e; simp
        · rename_i hc; cases e; simp [hc]
      · cases e; simp
    · rintro (_ | t) ht
      · exact .ok ⟨⟨h.inp, by simp, by simp⟩, rfl⟩
      · exact .ok ⟨⟨h.inp, fun e => ht (by rw [show t = Tok.DocEnd from e]), by simp⟩, rfl⟩

theorem next (h : BLost' s) : Yields (fun x => BLost' x.2 ∧ (x.1 = .Value → x.2.skip = true) ∧ x.1 ≠ .DocEnd) s.getNextToken := by
  unfold BsonS.getNextToken
  refine h.settle.bind ?_
  rintro s ⟨h, hk⟩
  split
  · exact Yields.bind (P := fun _ => False) (readKey h.inp) fun _ h => h.elim
  · exact h.handOut hk

theorem use {n : Int} (h : BLost' s) : Yields BLost' (s.use n) := by
  unfold BsonS.use
  split
  · exact .ub
  · exact .ok ⟨h.inp, h.docEnd, h.value⟩

theorem readInt {n : Nat} (hn : 0 < n) (h : BLost' s) {P : Int × BsonS → Prop} : Yields P (s.readInt n) := by
  unfold BsonS.readInt
  refine h.use.bind ?_
  intro x hx
  exact Yields.bind (P := fun _ => False) (readLE hn hx.inp) fun _ h => h.elim

theorem getInt (k : IntKind) (h : BLost' s) {P : Int × BsonS → Prop} : Yields P (s.getInt k) := by
  unfold BsonS.getInt
  split
  · exact Yields.bind (P := fun _ => False) (h.readInt (by decide)) fun _ h => h.elim
  split
  · exact Yields.bind (P := fun _ => False) (h.readInt (by decide)) fun _ h => h.elim
  · exact .throwStd

theorem getFlt (f : FKind) (h : BLost' s) {P : Flt × BsonS → Prop} : Yields P (s.getFlt f) := by
  unfold BsonS.getFlt
  split
  · exact Yields.bind (P := fun _ => False) (h.readInt (by decide)) fun _ h => h.elim
  split
  · exact Yields.bind (P := fun _ => False) (h.readInt (by decide)) fun _ h => h.elim
  split
  · refine Yields.bind (P := fun _ => False) ?_ fun _ h => h.elim
    unfold BsonS.readDouble
    rw [read h.inp]
    exact .throwStd
  · exact .throwStd

theorem getBool (h : BLost' s) {P : Bool × BsonS → Prop} : Yields P s.getBool := by
  unfold BsonS.getBool
  split
  · exact .throwStd
  · unfold BsonS.readBool
    rw [read h.inp]
    exact .throwStd

theorem getStr (h : BLost' s) {P : Bytes × BsonS → Prop} : Yields P s.getStr := by
  unfold BsonS.getStr
  split
  · exact .throwStd
  · unfold BsonS.readString
    exact Yields.bind (P := fun _ => False) (readLE (by decide) h.inp) fun _ h => h.elim

theorem ignoreInt {i : IStr} {n : Int} (h : i.good = false) : (i.ignoreInt n).good = false := by
  unfold IStr.ignoreInt IStr.ignore
  rw [if_pos h, if_pos h]
  split <;> simp [IStr.good]

theorem ignoreBytes {n : Int} (h : BLost' s) : Yields BLost' (s.ignoreBytes n) := use ⟨ignoreInt h.inp, h.docEnd, h.value⟩

theorem ignoreSized {n : Int} (h : BLost' s) : Yields BLost' (s.ignoreSized n) := by
  unfold BsonS.ignoreSized
  exact Yields.bind (P := fun _ => False) (readLE (by decide) h.inp) fun _ h => h.elim

theorem ignoreData (h : BLost' s) : Yields BLost' s.ignoreDataValue := by
  unfold BsonS.ignoreDataValue
  have mv : ∀ n : Int, Yields BLost' (s.ignoreBytes n) := fun n => h.ignoreBytes
  exact .ite (.ok h) <| .ite (mv 8) <| .ite (mv 16) <| .ite (mv 4) <| .ite (mv 8) <| .ite (mv 12) <| .ite (mv 1) <| .ite (mv 8) <| .ite (mv 8) <|
    .ite (.ok h) <| .ite h.ignoreSized <| .ite h.ignoreSized .throwStd

end BLost'

/-! ### The operations side by side -/

namespace BLive
variable {w : Prop} {pre : Bytes} {s : BsonP} {s' : BsonS}

theorem next (h : BLive w pre s s') : Agree (Tokens w pre) (fun _ => False) (fun y => BLost' y.2 ∧ (y.1 = .Value → y.2.skip = true) ∧ y.1 ≠ .DocEnd)
    s.getNextToken s'.getNextToken := by
  unfold BsonP.getNextToken BsonS.getNextToken
  refine h.settle.bind0 ?_
  rintro s s' ⟨h, hk⟩
  rw [show s'.next = s.next by rw [h.eq]; rfl]
  refine .ite (fun hn => ?_) fun _ => (h.handOut hk).mono (fun _ _ h => h) (fun _ h => h) (fun _ h => h.elim)
  refine h.readKey.bind ?_ (fun _ h => h.elim) ?_
  · rintro x y ⟨hl, h1, h2, h3⟩
    rw [show y.conts = x.conts by rw [hl.eq]; rfl]
    have hk2 : x.skip = false := by rw [h2]; exact hk
    cases hc : x.conts with
    | nil => exact .ub
    | cons c cs =>
      dsimp only
      rw [show y.type = x.type by rw [hl.eq]; rfl]
      have fin : ∀ {x2 : BsonP} {y2 : BsonS}, BLive w pre x2 y2 → x2.skip = false →
          Agree (Tokens w pre) (fun _ => False) (fun y => BLost' y.2 ∧ (y.1 = .Value → y.2.skip = true) ∧ y.1 ≠ .DocEnd)
          (if c = .Map then return (.Key, x2) else x2.handOut) (if c = .Map then return (.Key, y2) else y2.handOut) := fun hl hk =>
        .ite (fun _ => .ok ⟨rfl, hl, by simp⟩) fun _ => (hl.handOut hk).mono (fun _ _ h => h) (fun _ h => h) (fun _ h => h.elim)
      by_cases h3 : x.type = 0x03
      · rw [if_pos h3, if_pos h3]
        exact fin ⟨by rw [hl.eq]; rfl, hl.inp, fun e => absurd e (by simp [hk2])⟩ hk2
      · rw [if_neg h3, if_neg h3]
        by_cases h4 : x.type = 0x04
        · rw [if_pos h4, if_pos h4]
          exact fin ⟨by rw [hl.eq]; rfl, hl.inp, fun e => absurd e (by simp [hk2])⟩ hk2
        · rw [if_neg h4, if_neg h4]
          exact fin ⟨by rw [hl.eq]; rfl, hl.inp, fun e => absurd e (by simp [hk2])⟩ hk2
  · rintro y ⟨hg, hc, hs⟩
    have hk2 : y.skip = false := by rw [hs]; exact hk
    cases hc : y.conts with
    | nil => exact .ub
    | cons c cs =>
      dsimp only
      have fin : ∀ {y2 : BsonS}, y2.inp.good = false → y2.next ≠ .DocEnd → y2.skip = false →
          Yields (fun y : Tok × BsonS => BLost' y.2 ∧ (y.1 = .Value → y.2.skip = true) ∧ y.1 ≠ .DocEnd) (if c = .Map then return (.Key, y2) else y2.handOut) := by
        intro y2 h1 h2 h3
        have hl : BLost' y2 := ⟨h1, fun e => absurd e h2, fun e => absurd e (by simp [h3])⟩
        split
        · exact .ok ⟨hl, by simp, by simp⟩
        · exact hl.handOut h3
      by_cases h3 : y.type = 0x03
      · rw [if_pos h3]; exact fin hg (by simp) hk2
      · rw [if_neg h3]
        by_cases h4 : y.type = 0x04
        · rw [if_pos h4]; exact fin hg (by simp) hk2
        · rw [if_neg h4]; exact fin hg (by simp) hk2

theorem readInt (n : Nat) (h : BLive w pre s s') : Agree (fun x y => x.1 = y.1 ∧ BLive w pre x.2 y.2) (fun _ => False) (fun _ => False) (s.readInt n) (s'.readInt n) := by
  unfold BsonP.readInt BsonS.readInt
  refine (h.use n).bind0 ?_
  rintro x y ⟨hl, -⟩
  refine hl.inp.readLE.bind0 ?_
  rintro ⟨v, a⟩ ⟨v', i⟩ ⟨h1, h2, -⟩
  exact .ok ⟨h1, ⟨by rw [hl.eq]; rfl, h2, hl.value⟩⟩

theorem getInt (k : IntKind) (h : BLive w pre s s') : Agree (fun x y => x.1 = y.1 ∧ BLive w pre x.2 y.2) (fun _ => False) (fun _ => False) (s.getInt k) (s'.getInt k) := by
  unfold BsonP.getInt BsonS.getInt
  rw [show s'.type = s.type by rw [h.eq]; rfl]
  have fin : ∀ n, Agree (fun x y => x.1 = y.1 ∧ BLive w pre x.2 y.2) (fun _ => False) (fun _ => False)
      (do let (v, s) ← s.readInt n; return (castTo k v, s)) (do let (v, s) ← s'.readInt n; return (castTo k v, s)) := fun n =>
    (h.readInt n).bind0 fun x y hx => .ok ⟨by rw [hx.1], hx.2⟩
  exact .ite (fun _ => fin 4) fun _ => .ite (fun _ => fin 8) fun _ => .throwStd

theorem readDouble (h : BLive w pre s s') : Agree (fun x y => x.1 = y.1 ∧ BLive w pre x.2 y.2) (fun _ => False) (fun _ => False) s.readDouble s'.readDouble := by
  obtain ⟨e, hi, hv⟩ := h
  unfold BsonP.readDouble BsonS.readDouble
  by_cases hn : s.inp.pos + 8 ≤ s.inp.data.length
  · obtain ⟨a', i', e1, e2, hs, hl⟩ := hi.read_enough hn
    rw [e1, e2]
    simp only [Res.ok_bind, Bool.true_eq_false, if_false]
    have hl' : BLive w pre { s with inp := a' } { s' with inp := i' } := ⟨by rw [e]; rfl, hs, hv⟩
    refine (hl'.use 8).bind0 ?_
    rintro x y ⟨hL, -⟩
    exact .ite (fun _ => .ub) fun _ => .ok ⟨rfl, hL⟩
  · obtain ⟨got, a', i', e1, e2, hl, -⟩ := hi.read_short (Nat.lt_of_not_le hn)
    rw [e1, e2]
    simp only [Res.ok_bind, Bool.true_eq_false, if_false, if_true]
    refine .inr ⟨?_, .throwStd⟩
    intro x hx
    obtain ⟨s1, -, h2⟩ := Res.bind_ok hx
    rw [if_pos hl] at h2
    cases h2

theorem getFlt (f : FKind) (h : BLive w pre s s') : Agree (fun x y => x.1 = y.1 ∧ BLive w pre x.2 y.2) (fun _ => False) (fun _ => False) (s.getFlt f) (s'.getFlt f) := by
  unfold BsonP.getFlt BsonS.getFlt
  rw [show s'.type = s.type by rw [h.eq]; rfl]
  have fin : ∀ n, Agree (fun x y => x.1 = y.1 ∧ BLive w pre x.2 y.2) (fun _ => False) (fun _ => False)
      (do let (v, s) ← s.readInt n; return (intFlt f v, s)) (do let (v, s) ← s'.readInt n; return (intFlt f v, s)) := fun n =>
    (h.readInt n).bind0 fun x y hx => .ok ⟨by rw [hx.1], hx.2⟩
  exact .ite (fun _ => fin 4) fun _ => .ite (fun _ => fin 8) fun _ => .ite (fun _ => h.readDouble.bind0 fun x y hx => .ok ⟨by rw [hx.1], hx.2⟩) fun _ => .throwStd

theorem readBool (h : BLive w pre s s') : Agree (fun x y => x.1 = y.1 ∧ BLive w pre x.2 y.2) (fun _ => False) (fun _ => False) s.readBool s'.readBool := by
  obtain ⟨e, hi, hv⟩ := h
  unfold BsonP.readBool BsonS.readBool
  by_cases hn : s.inp.pos + 1 ≤ s.inp.data.length
  · obtain ⟨a', i', e1, e2, hs, hl⟩ := hi.read_enough hn
    rw [e1, e2]
    simp only [Res.ok_bind, Bool.true_eq_false, if_false]
    have hl' : BLive w pre { s with inp := a' } { s' with inp := i' } := ⟨by rw [e]; rfl, hs, hv⟩
    refine (hl'.use 1).bind0 ?_
    rintro x y ⟨hL, -⟩
    generalize (s.inp.data.drop s.inp.pos).take 1 = got
    split
    · exact .ok ⟨rfl, hL⟩
    · exact .ok ⟨rfl, hL⟩
    · rename_i h0 h1
      split
      · exact absurd rfl h0
      · exact absurd rfl h1
      · exact .ub
  · obtain ⟨got, a', i', e1, e2, hl, -⟩ := hi.read_short (Nat.lt_of_not_le hn)
    rw [e1, e2]
    simp only [Res.ok_bind, Bool.true_eq_false, if_false, if_true]
    have : got = [] := List.length_eq_zero_iff.1 (by omega)
    subst this
    refine .inr ⟨?_, .throwStd⟩
    intro x hx
    obtain ⟨s1, -, h2⟩ := Res.bind_ok hx
    cases h2

theorem getBool (h : BLive w pre s s') : Agree (fun x y => x.1 = y.1 ∧ BLive w pre x.2 y.2) (fun _ => False) (fun _ => False) s.getBool s'.getBool := by
  unfold BsonP.getBool BsonS.getBool
  rw [show s'.type = s.type by rw [h.eq]; rfl]
  exact .ite (fun _ => .throwStd) fun _ => h.readBool

theorem readString (dst : Bytes) (h : BLive w pre s s') (hk : s.skip = true) :
    Agree (fun x y => x.1 = y.1 ∧ BLive w pre x.2 y.2) (fun x => BLost x.2) (fun _ => False) (s.readString dst) (s'.readString dst) := by
  unfold BsonP.readString BsonS.readString
  refine h.inp.readLE.bind0 ?_
  rintro ⟨n, a⟩ ⟨n', i⟩ ⟨h1, h2, -⟩
  dsimp only at h1 h2 ⊢
  subst h1
  have hl' : BLive w pre { s with inp := a } { s' with inp := i } := ⟨by rw [h.eq]; rfl, h2, h.value⟩
  refine (hl'.use 4).bind0 ?_
  rintro x y ⟨hL, hx1, hx2, -⟩
  refine .ite (fun _ => .ite (fun _ => .throwStd) fun _ => .ub) fun _ => ?_
  obtain ⟨e, hi, hv⟩ := hL
  by_cases hn : x.inp.pos + n.toNat ≤ x.inp.data.length
  · obtain ⟨a', i', e1, e2, hs, hl⟩ := hi.read_enough hn
    rw [e1, e2]
    simp only [Res.ok_bind, Bool.true_eq_false, if_false]
    have hl' : BLive w pre { x with inp := a' } { y with inp := i' } := ⟨by rw [e]; rfl, hs, hv⟩
    refine (hl'.use n).bind0 ?_
    rintro x2 y2 ⟨hL, -⟩
    exact .ite (fun _ => .throwStd) fun _ => .ok ⟨rfl, hL⟩
  · obtain ⟨got, a', i', e1, e2, hl, hd, hp⟩ := hi.read_short (Nat.lt_of_not_le hn)
    rw [e1, e2]
    simp only [Res.ok_bind, Bool.true_eq_false, if_false, if_true]
    refine .inr ⟨?_, .throwStd⟩
    intro z hz
    obtain ⟨s1, h1, h2⟩ := Res.bind_ok hz
    obtain ⟨l, ls, -, rfl⟩ := BsonP.use_ok h1
    split at h2
    · cases h2
    · cases h2
      have hnv : x.next = .Value := hv (by rw [hx2]; exact hk)
      exact ⟨by dsimp only; rw [hd, hp]; exact Nat.le_refl _, fun e => absurd (hnv.symm.trans e) (by decide), hv⟩

theorem getStr (h : BLive w pre s s') (hk : s.skip = true) : Agree (fun x y => x.1 = y.1 ∧ BLive w pre x.2 y.2) (fun x => BLost x.2) (fun _ => False) s.getStr s'.getStr := by
  unfold BsonP.getStr BsonS.getStr
  rw [show s'.type = s.type by rw [h.eq]; rfl]
  exact .ite (fun _ => .throwStd) fun _ => h.readString [] hk

/-- Moving over a number of bytes that is not negative. -/
theorem ignoreInt {a : StrIn} {i : IStr} (h : SameInput w pre a i) {n : Int} (hn : 0 ≤ n) :
    SameInput w pre (a.ignoreInt n) (i.ignoreInt n) ∨ ((a.ignoreInt n).data.length ≤ (a.ignoreInt n).pos ∧ (i.ignoreInt n).good = false) := by
  have hlen : i.data.length = pre.length + a.data.length := by rw [h.data, List.length_append]
  have hp := h.pos
  by_cases hl : a.pos + n.toNat ≤ a.data.length
  · refine .inl ?_
    have e1 : a.ignoreInt n = { a with pos := a.pos + n.toNat, good := true } := by
      unfold StrIn.ignoreInt
      rw [if_pos hn]
      dsimp only
      rw [decide_eq_true hl]
    have e2 : i.ignoreInt n = { i with pos := i.pos + n.toNat } := by
      unfold IStr.ignoreInt IStr.ignore
      rw [if_neg (by omega), if_neg (by simp [h.good]), if_pos (by omega)]
    rw [e1, e2]
    exact ⟨h.data, by dsimp only; omega, hl, h.eof, h.fail, h.small⟩
  · refine .inr ?_
    have e1 : a.ignoreInt n = { a with pos := a.pos + n.toNat, good := false } := by
      unfold StrIn.ignoreInt
      rw [if_pos hn]
      dsimp only
      rw [decide_eq_false hl]
    have e2 : i.ignoreInt n = { i with pos := i.data.length, eof := true } := by
      unfold IStr.ignoreInt IStr.ignore
      rw [if_neg (by omega), if_neg (by simp [h.good]), if_neg (by omega)]
    rw [e1, e2]
    exact ⟨by dsimp only; omega, rfl⟩

theorem moved (h : BLive w pre s s') (hk : s.skip = true) {a : StrIn} {i : IStr} (hi : SameInput w pre a i) {n : Int} (hn : 0 ≤ n) (m : Int) :
    Agree (BLive w pre) BLost BLost' (BsonP.use m { s with inp := a.ignoreInt n }) (BsonS.use m { s' with inp := i.ignoreInt n }) := by
  have hnv : s.next = .Value := h.value hk
  have hnv' : s'.next = .Value := by rw [h.eq]; exact hnv
  rcases ignoreInt hi hn with hs | ⟨h1, h2⟩
  · have hl' : BLive w pre { s with inp := a.ignoreInt n } { s' with inp := i.ignoreInt n } := ⟨by rw [h.eq]; rfl, hs, h.value⟩
    exact (hl'.use m).mono (fun _ _ h => h.1) (fun _ h => h.elim) (fun _ h => h.elim)
  · refine .inr ⟨?_, ?_⟩
    · intro x e
      obtain ⟨l, ls, -, rfl⟩ := BsonP.use_ok e
      exact ⟨h1, fun e => absurd (hnv.symm.trans e) (by decide), h.value⟩
    · exact BLost'.use ⟨h2, fun e => absurd (hnv'.symm.trans e) (by decide), fun _ => hnv'⟩

theorem ignoreSized (h : BLive w pre s s') (hk : s.skip = true) (hw : w ∨ ∀ n a, Thors.readLE 4 s.inp = .ok (n, a) → 0 ≤ n) {n : Int} (hn : 0 ≤ n) :
    Agree (BLive w pre) BLost BLost' (s.ignoreSized n) (s'.ignoreSized n) := by
  unfold BsonP.ignoreSized BsonS.ignoreSized
  rcases h.inp.readLE (n := 4) with ⟨⟨k, a⟩, ⟨k', i⟩, e1, e2, h1, h2, h3⟩ | ⟨h1, h2⟩
  · rw [e1, e2]
    simp only [Res.ok_bind]
    dsimp only at h1 h2 h3 ⊢
    subst h1
    have : 0 ≤ k := by
      rcases hw with hw | hw
      · exact h3 hw
      · exact hw k a e1
    exact .ite (fun _ => .ub) fun _ => h.moved hk h2 (by omega) _
  · exact .inr ⟨h1.bind fun _ h => h.elim, h2.bind fun _ h => h.elim⟩

theorem ignoreData (h : BLive w pre s s') (hw : (w ∨ ((s.type = 0x02 ∨ s.type = 0x05) → ∀ n a, Thors.readLE 4 s.inp = .ok (n, a) → 0 ≤ n)) ∨ s.isValueNull = true) : Agree (BLive w pre) BLost BLost' s.ignoreDataValue s'.ignoreDataValue := by
  unfold BsonP.ignoreDataValue BsonS.ignoreDataValue
  rw [show s'.type = s.type by rw [h.eq]; rfl, show s'.skip = s.skip by rw [h.eq]; rfl]
  refine .ite (fun _ => .ok h) fun hk => ?_
  have hk : s.skip = true := by simpa using hk
  have mv : ∀ n : Int, 0 ≤ n → Agree (BLive w pre) BLost BLost' (s.ignoreBytes n) (s'.ignoreBytes n) := fun n hn => h.moved hk h.inp hn n
  refine .ite (fun _ => mv 8 (by decide)) fun _ => .ite (fun _ => mv 16 (by decide)) fun _ => .ite (fun _ => mv 4 (by decide)) fun _ =>
    .ite (fun _ => mv 8 (by decide)) fun _ => .ite (fun _ => mv 12 (by decide)) fun _ => .ite (fun _ => mv 1 (by decide)) fun _ =>
    .ite (fun _ => mv 8 (by decide)) fun _ => .ite (fun _ => mv 8 (by decide)) fun _ => .ite (fun _ => .ok h) fun hA => ?_
  have hw : w ∨ ((s.type = 0x02 ∨ s.type = 0x05) → ∀ n a, Thors.readLE 4 s.inp = .ok (n, a) → 0 ≤ n) := by
    rcases hw with hw | hw
    · exact hw
    · exact absurd (by simpa [BsonP.isValueNull] using hw) hA
  have sz : (s.type = 0x02 ∨ s.type = 0x05) → w ∨ ∀ n a, Thors.readLE 4 s.inp = .ok (n, a) → 0 ≤ n := fun ht => hw.imp id fun f => f ht
  exact .ite (fun ht => h.ignoreSized hk (sz (.inl ht)) (by decide)) fun _ => .ite (fun ht => h.ignoreSized hk (sz (.inr ht)) (by decide)) fun _ => .throwStd

end BLive

/-! ### Imports -/

/-- The parser on a string, followed by the parser on a stream. -/
def FromString (w : Prop) (pre : Bytes) (s : BsonP) : Option BsonS → Prop
  | some s' => BLive w pre s s'
  | none => BLost s

/-- The parser on a stream, followed by the parser on a string. -/
def FromStream (w : Prop) (pre : Bytes) (s' : BsonS) : Option BsonP → Prop
  | some s => BLive w pre s s'
  | none => BLost' s'

/-- The two runs agree, seen from the first. -/
theorem Agree.toSim {α P P' : Type} {L : α × P → α × P' → Prop} {D : α × P → Prop} {D' : α × P' → Prop} {J : α → P → Option P' → Prop} {f : P' → Res (α × P')} {r : Res (α × P)} {s' : P'}
    (h : Agree L D D' r (f s')) (h1 : ∀ a p b q, L (a, p) (b, q) → a = b ∧ J a p (some q)) (h2 : ∀ a p, D (a, p) → J a p none) : Sim J r (some s') f := by
  intro a p e
  rcases h with ⟨⟨a1, p1⟩, ⟨b, q⟩, e1, e2, hl⟩ | ⟨hd, -⟩
  · rw [e] at e1
    cases e1
    obtain ⟨rfl, hj⟩ := h1 _ _ _ _ hl
    exact ⟨some q, hj, fun p' hp => by cases hp; exact ⟨s', rfl, e2⟩⟩
  · exact ⟨none, h2 _ _ (hd _ e), fun p' hp => by cases hp⟩

theorem Agree.toSim' {α P P' : Type} {L : α × P → α × P' → Prop} {D : α × P → Prop} {D' : α × P' → Prop} {J : α → P' → Option P → Prop} {f : P → Res (α × P)} {r' : Res (α × P')} {s : P}
    (h : Agree L D D' (f s) r') (h1 : ∀ a p b q, L (a, p) (b, q) → a = b ∧ J a q (some p)) (h2 : ∀ a p, D' (a, p) → J a p none) : Sim J r' (some s) f := by
  intro a p e
  rcases h with ⟨⟨a1, p1⟩, ⟨b, q⟩, e1, e2, hl⟩ | ⟨-, hd⟩
  · rw [e] at e2
    cases e2
    obtain ⟨rfl, hj⟩ := h1 _ _ _ _ hl
    exact ⟨some p1, hj, fun p' hp => by cases hp; exact ⟨s, rfl, e1⟩⟩
  · exact ⟨none, h2 _ _ (hd _ e), fun p' hp => by cases hp⟩

theorem Agree.toSim1 {P P' : Type} {L : P → P' → Prop} {D : P → Prop} {D' : P' → Prop} {J : P → Option P' → Prop} {f : P' → Res P'} {r : Res P} {s' : P'}
    (h : Agree L D D' r (f s')) (h1 : ∀ p q, L p q → J p (some q)) (h2 : ∀ p, D p → J p none) : Sim1 J r (some s') f := by
  intro p e
  rcases h with ⟨p1, q, e1, e2, hl⟩ | ⟨hd, -⟩
  · rw [e] at e1
    cases e1
    exact ⟨some q, h1 _ _ hl, fun p' hp => by cases hp; exact ⟨s', rfl, e2⟩⟩
  · exact ⟨none, h2 _ (hd _ e), fun p' hp => by cases hp⟩

theorem Agree.toSim1' {P P' : Type} {L : P → P' → Prop} {D : P → Prop} {D' : P' → Prop} {J : P' → Option P → Prop} {f : P → Res P} {r' : Res P'} {s : P}
    (h : Agree L D D' (f s) r') (h1 : ∀ p q, L p q → J q (some p)) (h2 : ∀ p, D' p → J p none) : Sim1 J r' (some s) f := by
  intro p e
  rcases h with ⟨p1, q, e1, e2, hl⟩ | ⟨-, hd⟩
  · rw [e] at e2
    cases e2
    exact ⟨some p1, h1 _ _ hl, fun p' hp => by cases hp; exact ⟨s, rfl, e1⟩⟩
  · exact ⟨none, h2 _ (hd _ e), fun p' hp => by cases hp⟩

theorem Yields.lost {α P P' : Type} {D : α × P → Prop} {J : α → P → Option P' → Prop} {r : Res (α × P)} {f : P' → Res (α × P')} (h : Yields D r)
    (h2 : ∀ a p, D (a, p) → J a p none) : Sim J r none f := fun a p e => ⟨none, h2 _ _ (h _ e), fun p' hp => by cases hp⟩

theorem Yields.lost1 {P P' : Type} {J : P → Option P' → Prop} {D : P → Prop} {r : Res P} {f : P' → Res P'} (h : Yields D r)
    (h2 : ∀ p, D p → J p none) : Sim1 J r none f := fun p e => ⟨none, h2 _ (h _ e), fun p' hp => by cases hp⟩

theorem bson_stream_follows (w : Prop) (pre : Bytes) : SimOps BsonP.ops BsonS.ops w (FromString w pre) (fun s => s.skip = true) (fun _ g => g ≠ none) where
  next s g h := by
    cases g with
    | some s' => exact (BLive.next h).toSim (fun a p b q hl => ⟨hl.1, hl.2.1, hl.2.2, by simp⟩) fun _ _ h => h.elim
    | none => exact (BLost.next h).lost fun a p h => ⟨h.1, h.2.1, fun e => absurd e h.2.2⟩
  getKey s g h := by
    intro a p e
    cases e
    refine ⟨g, h, ?_⟩
    rintro p' rfl
    exact ⟨p', rfl, by rw [BLive.eq h]; rfl⟩
  getInt k s g h hv := by
    cases g with
    | some s' => exact (BLive.getInt k h).toSim (fun a p b q hl => ⟨hl.1, hl.2⟩) fun _ _ h => h.elim
    | none => exact (BLost.getInt k h (P := fun _ => False)).lost fun a p h => h.elim
  getFlt f s g h hv := by
    cases g with
    | some s' => exact (BLive.getFlt f h).toSim (fun a p b q hl => ⟨hl.1, hl.2⟩) fun _ _ h => h.elim
    | none => exact (BLost.getFlt f h (P := fun _ => False)).lost fun a p h => h.elim
  getBool s g h hv := by
    cases g with
    | some s' => exact (BLive.getBool h).toSim (fun a p b q hl => ⟨hl.1, hl.2⟩) fun _ _ h => h.elim
    | none => exact (BLost.getBool h (P := fun _ => False)).lost fun a p h => h.elim
  getStr s g h hv := by
    cases g with
    | some s' => exact (BLive.getStr h hv).toSim (fun a p b q hl => ⟨hl.1, hl.2⟩) fun _ _ h => h
    | none => exact (BLost.getStr h (P := fun _ => False)).lost fun a p h => h.elim
  isNull s s' h := by rw [BLive.eq h]; rfl
  ignoreData s g h hw := by
    cases g with
    | some s' => exact (BLive.ignoreData h (hw.imp .inl id)).toSim1 (fun _ _ h => h) fun _ h => h
    | none => exact (BLost.ignoreData h).lost1 fun _ h => h

theorem bson_string_follows (w : Prop) (pre : Bytes) : SimOps BsonS.ops BsonP.ops w (FromStream w pre) (fun s => s.skip = true) (fun _ g => g ≠ none) where
  next s g h := by
    cases g with
    | some s' =>
      refine (BLive.next h).toSim' (fun a p b q hl => ⟨hl.1, hl.2.1, fun e => ?_, by simp⟩) fun a p h => ⟨h.1, h.2.1, fun e => absurd e h.2.2⟩
      have := hl.2.2 e
      have h2 : BLive w pre p q := hl.2.1
      rw [h2.eq]
      exact this
    | none => exact (BLost'.next h).lost fun a p h => ⟨h.1, h.2.1, fun e => absurd e h.2.2⟩
  getKey s g h := by
    intro a p e
    cases e
    refine ⟨g, h, ?_⟩
    rintro p' rfl
    exact ⟨p', rfl, by rw [BLive.eq h]; rfl⟩
  getInt k s g h hv := by
    cases g with
    | some s' => exact (BLive.getInt k h).toSim' (fun a p b q hl => ⟨hl.1, hl.2⟩) fun _ _ h => h.elim
    | none => exact (BLost'.getInt k h (P := fun _ => False)).lost fun a p h => h.elim
  getFlt f s g h hv := by
    cases g with
    | some s' => exact (BLive.getFlt f h).toSim' (fun a p b q hl => ⟨hl.1, hl.2⟩) fun _ _ h => h.elim
    | none => exact (BLost'.getFlt f h (P := fun _ => False)).lost fun a p h => h.elim
  getBool s g h hv := by
    cases g with
    | some s' => exact (BLive.getBool h).toSim' (fun a p b q hl => ⟨hl.1, hl.2⟩) fun _ _ h => h.elim
    | none => exact (BLost'.getBool h (P := fun _ => False)).lost fun a p h => h.elim
  getStr s g h hv := by
    cases g with
    | some s' =>
      have hk : s'.skip = true := by
        have h2 : BLive w pre s' s := h
        rw [h2.eq] at hv
        exact hv
      exact (BLive.getStr h hk).toSim' (fun a p b q hl => ⟨hl.1, hl.2⟩) fun _ _ h => h.elim
    | none => exact (BLost'.getStr h (P := fun _ => False)).lost fun a p h => h.elim
  isNull s s' h := by rw [BLive.eq h]; rfl
  ignoreData s g h hw := by
    cases g with
    | some s' =>
      have hw2 : w ∨ s'.isValueNull = true := by
        have h2 : BLive w pre s' s := h
        rw [h2.eq] at hw
        exact hw
      exact (BLive.ignoreData h (hw2.imp .inl id)).toSim1' (fun _ _ h => h) fun _ h => h
    | none => exact (BLost'.ignoreData h).lost1 fun _ h => h

/-- The import of BSON from a stream into an object of type `ty` with the old value `old`: the new value and the stream. -/
noncomputable def bsonStreamImport (env : Env) (cfg : Cfg) (ty : Ty) (old : Val) (i : IStr) : Res (Val × IStr) := do
  let (v, p) ← importValue BsonS.ops env cfg ty old (PI.init (BsonS.ofStream (bsonBase env ty) i))
  return (v, p.inner.inp)

theorem live_start (w : Prop) (pre t : Bytes) (info : BCont) (hw : w → ∀ b ∈ t, b.toNat < 128) (sk : Bool) :
    BLive w pre (BsonP.ofBytes info t) (BsonS.ofStream info ⟨pre ++ t, pre.length, false, false, sk⟩) :=
  ⟨rfl, ⟨rfl, rfl, Nat.zero_le _, rfl, rfl, hw⟩, by simp [BsonP.ofBytes]⟩

/-- What is imported from a string is imported from a stream, which is then where the string parser is. -/
theorem bson_string_to_stream (env : Env) (cfg : Cfg) (ty : Ty) (old : Val) (pre t : Bytes) (sk : Bool) (hw : cfg.strict = .Weak → ∀ b ∈ t, b.toNat < 128)
    {v : Val} {q : PI BsonP} (h : importValue BsonP.ops env cfg ty old (PI.init (BsonP.ofBytes (bsonBase env ty) t)) = .ok (v, q)) :
    ∃ i, bsonStreamImport env cfg ty old ⟨pre ++ t, pre.length, false, false, sk⟩ = .ok (v, i) ∧ SameInput (cfg.strict = .Weak) pre q.inner.inp i := by
  obtain ⟨q', e, hj⟩ := import_sim (bson_stream_follows (cfg.strict = .Weak) pre) env cfg (fun h => h) ty old
    (s' := BsonS.ofStream (bsonBase env ty) ⟨pre ++ t, pre.length, false, false, sk⟩) (live_start _ pre t _ hw sk) h
  refine ⟨q'.inner.inp, ?_, BLive.inp hj⟩
  unfold bsonStreamImport
  rw [e]
  rfl

/-- What is imported from a stream is imported from a string. -/
theorem bson_stream_to_string (env : Env) (cfg : Cfg) (ty : Ty) (old : Val) (pre t : Bytes) (sk : Bool) (hw : cfg.strict = .Weak → ∀ b ∈ t, b.toNat < 128)
    {v : Val} {i : IStr} (h : bsonStreamImport env cfg ty old ⟨pre ++ t, pre.length, false, false, sk⟩ = .ok (v, i)) :
    bsonImport env cfg ty old t = .ok v := by
  unfold bsonStreamImport at h
  obtain ⟨⟨v', q⟩, h1, h2⟩ := Res.bind_ok h
  cases h2
  obtain ⟨q', e, hj⟩ := import_sim (bson_string_follows (cfg.strict = .Weak) pre) env cfg (fun h => h) ty old
    (s' := BsonP.ofBytes (bsonBase env ty) t) (live_start _ pre t _ hw sk) h1
  unfold bsonImport
  rw [e]
  rfl

end Thors
