import Verif.Spec.BsonEnds
import Verif.Proofs.BsonEnds
/-
An import of BSON from a string, in a mode that does not skip members, comes to an end without undefined behaviour other than indeterminate values.
-/
namespace Thors
open Spec StrIn

namespace BStrEnds
open BEnds (Lvl Fits pend w w_le w_pos)
variable (j : BStrIndet)

/-! ### where nothing is indeterminate the two parsers are the same -/

theorem low_le (n : Nat) (i : StrIn) : Low (Thors.readLE n i) (BStrJ.readLE j n i) := by
  unfold Thors.readLE BStrJ.readLE
  refine (Low.same _).bind fun x => ?_
  dsimp only
  split
  · exact .inl rfl
  · exact .same _

theorem low_open (s : BsonP) : Low s.openLevel (BStrJ.openLevel j s) := (low_le j 4 s.inp).bind fun _ => .same _

theorem low_handOut (s : BsonP) : Low s.handOut (BStrJ.handOut j s) := by
  obtain ⟨inp, conts, left, size, next, key, type, skip⟩ := s
  unfold BsonP.handOut BStrJ.handOut
  cases next with
  | DocStart =>
    dsimp only
    cases conts with
    | nil => exact .same _
    | cons c cs =>
      cases c with
      | Map => exact .same _
      | Array => exact .same _
      | Value =>
        dsimp only
        exact (low_open j _).bind fun _ => .same _
  | MapStart | ArrayStart => exact (low_open j _).bind fun _ => .same _
  | _ => exact .same _

theorem low_next (s : BsonP) : Low s.getNextToken (BStrJ.getNextToken j s) := by
  unfold BsonP.getNextToken BStrJ.getNextToken
  refine (Low.same _).bind fun s => ?_
  refine .ite ((Low.same _).bind fun s => ?_) (low_handOut j s)
  obtain ⟨inp, conts, left, size, next, key, type, skip⟩ := s
  cases conts with
  | nil => exact .same _
  | cons c cs => exact .ite (.same _) (low_handOut j _)

theorem low_bool (got : Bytes) (s : BsonP) (b : Bool) :
    Low (match got with | [0x00] => .ok (false, s) | [0x01] => .ok (true, s) | _ => (.ub : Res (Bool × BsonP)))
      (match got with | [0x00] => .ok (false, s) | [0x01] => .ok (true, s) | _ => .ok (b, s)) := by
  split
  · exact .same _
  · exact .same _
  · exact .inl rfl

theorem low_readInt (n : Nat) (s : BsonP) : Low (s.readInt n) (BStrJ.readInt j n s) :=
  (Low.same _).bind fun s => (low_le j n s.inp).bind fun _ => .same _

theorem low_readDouble (s : BsonP) : Low s.readDouble (BStrJ.readDouble j s) := by
  unfold BsonP.readDouble BStrJ.readDouble
  refine (Low.same _).bind fun x => .ite (.same _) ((Low.same _).bind fun s => ?_)
  split
  · exact .inl rfl
  · exact .same _

theorem low_ignoreSized (x : Int) (s : BsonP) : Low (s.ignoreSized x) (BStrJ.ignoreSized j x s) := by
  unfold BsonP.ignoreSized BStrJ.ignoreSized
  refine (low_le j 4 s.inp).bind fun y => ?_
  dsimp only
  split
  · exact .inl rfl
  · exact .same _

theorem low_ops : LowOps BsonP.ops (BStrJ.ops j) where
  next := low_next j
  getKey _ := .same _
  getInt k s := by
    show Low (s.getInt k) (BStrJ.getInt j k s)
    unfold BsonP.getInt BStrJ.getInt
    exact .ite ((low_readInt j 4 s).bind fun _ => .same _) (.ite ((low_readInt j 8 s).bind fun _ => .same _) (.same _))
  getFlt f s := by
    show Low (s.getFlt f) (BStrJ.getFlt j f s)
    unfold BsonP.getFlt BStrJ.getFlt
    exact .ite ((low_readInt j 4 s).bind fun _ => .same _) (.ite ((low_readInt j 8 s).bind fun _ => .same _)
      (.ite ((low_readDouble j s).bind fun _ => .same _) (.same _)))
  getBool s := by
    show Low s.getBool (BStrJ.getBool j s)
    unfold BsonP.getBool BStrJ.getBool BsonP.readBool
    exact .ite (.same _) ((Low.same _).bind fun x => .ite (.same _) ((Low.same _).bind fun s => low_bool _ s _))
  getStr s := by
    show Low s.getStr (BStrJ.getStr j s)
    unfold BsonP.getStr BStrJ.getStr BsonP.readString
    refine .ite (.same _) ?_
    refine (low_le j 4 s.inp).bind fun y => (Low.same _).bind fun s => ?_
    dsimp only
    split
    · next h => rw [if_pos (by simpa using h)]; exact .same _
    · refine (Low.same _).bind fun z => .ite (.same _) ((Low.same _).bind fun s => ?_)
      simp only [List.length_nil, Int.natCast_zero, Int.zero_add, List.nil_append]
      exact .same _
  isNull _ := rfl
  ignoreData s := by
    show Low s.ignoreDataValue (BStrJ.ignoreDataValue j s)
    unfold BsonP.ignoreDataValue BStrJ.ignoreDataValue
    repeat' first | exact low_ignoreSized j _ _ | exact Low.same _ | apply Low.ite

/-! ### the input -/

def rem (i : StrIn) : Nat := i.data.length - i.pos

/-- Not behind the end. -/
def In (i : StrIn) : Prop := i.pos ≤ i.data.length

theorem read_safe {i : StrIn} (h : In i) (n : Nat) : Safe (fun x => In x.2.2 ∧ x.1.length = min n (rem i) ∧ rem x.2.2 + x.1.length ≤ rem i) (i.read n) := by
  unfold In at h
  unfold StrIn.read
  rw [if_neg (by omega)]
  refine .ok ?_
  unfold rem In
  dsimp only
  rw [List.length_take, List.length_drop]
  omega

theorem readTo_safe {i : StrIn} (h : In i) (d : Byte) : Safe (fun x => x.2.1 = true → In x.2.2 ∧ rem x.2.2 < rem i) (i.readTo d) := by
  unfold In at h
  unfold StrIn.readTo
  rw [if_neg (by omega)]
  refine .ok fun hg => ?_
  dsimp only at hg
  unfold rem In
  dsimp only
  have := of_decide_eq_true hg
  omega

theorem readLE_safe {i : StrIn} (h : In i) (n : Nat) : Safe (fun x => In x.2 ∧ rem x.2 ≤ rem i) (BStrJ.readLE j n i) := by
  unfold BStrJ.readLE
  refine (read_safe h n).bind ?_
  rintro ⟨got, good, i'⟩ ⟨h1, -, h2⟩
  dsimp only at h1 h2 ⊢
  split <;> exact .ok ⟨h1, by dsimp only; omega⟩

/-! ### the invariant -/

structure Inv (s : BsonP) : Prop where
  inp : In s.inp
  sizes : s.size.length = s.left.length
  fits : Fits s.next s.conts s.left.length
  skip : s.skip = true → s.next = .Value

def m (s : BsonP) : Nat := 2 * rem s.inp + if s.skip then 0 else pend s.next s.conts

def A (t : Tok) (s : BsonP) : Prop := t ≠ .Error ∧ (t = .Value → s.skip = true)

theorem use_safe {Q : BsonP → Prop} {s : BsonP} {n : Int} (h : 0 < s.left.length)
    (hq : ∀ ls, ls.length = s.left.length → Q { s with left := ls }) : Safe Q (s.use n) := by
  unfold BsonP.use
  split
  · next e => rw [e] at h; cases h
  · next l ls e => exact .ok (hq _ (by rw [e]; rfl))

/-- What `endToken` says. -/
theorem endToken_safe {s : BsonP} (h : Lvl s.conts s.left.length) (h0 : 0 < s.left.length) :
    Safe (fun x => ∀ t, x = some t → Fits t s.conts s.left.length ∧ pend t s.conts = 0 ∧ t ≠ .Value ∧ t ≠ .Key) s.endToken := by
  have hc := h.open h0
  obtain ⟨inp, conts, left, size, next, key, type, skip⟩ := s
  unfold BsonP.endToken
  dsimp only at h h0 hc ⊢
  cases left with
  | nil => cases h0
  | cons l ls =>
    dsimp only
    split
    · cases conts with
      | nil => exact absurd rfl hc
      | cons c cs =>
        cases c with
        | Map => exact .ok fun t e => by cases e; exact ⟨⟨h, _, _, rfl, by simp⟩, rfl, by simp, by simp⟩
        | Array => exact .ok fun t e => by cases e; exact ⟨⟨h, _, _, rfl, by simp⟩, rfl, by simp, by simp⟩
        | Value => exact .ok fun t e => by cases e; exact ⟨.inr ⟨rfl, h0⟩, rfl, by simp, by simp⟩
    · exact .ok fun t e => by cases e

theorem settle_safe {s : BsonP} (h : Inv s) : Safe (fun s' => Inv s' ∧ s'.skip = false ∧ m s' ≤ m s) s.settle := by
  unfold BsonP.settle
  split
  · next hs =>
    have hf := h.fits
    rw [h.skip hs] at hf
    refine (endToken_safe hf.1 hf.2).bind ?_
    intro x hx
    cases x with
    | none =>
      refine .ok ⟨⟨h.inp, h.sizes, hf, fun e => by cases e⟩, rfl, ?_⟩
      unfold m; simp [hs, pend]
    | some t =>
      obtain ⟨g1, g2, -, -⟩ := hx t rfl
      refine .ok ⟨⟨h.inp, h.sizes, g1, fun e => by cases e⟩, rfl, ?_⟩
      unfold m; simp [hs, g2]
  · next hs => exact .ok ⟨h, by simpa using hs, Nat.le_refl _⟩

theorem readEnd_safe {Q : BsonP → Prop} {s : BsonP} (hi : In s.inp) (h : 0 < s.left.length)
    (hq : ∀ inp ls, ls.length = s.left.length → In inp → rem inp < rem s.inp → Q { s with inp := inp, left := ls }) : Safe Q s.readEnd := by
  unfold BsonP.readEnd
  refine (read_safe hi 1).bind ?_
  rintro ⟨got, good, i'⟩ ⟨h1, h2, h3⟩
  dsimp only at h1 h2 h3 ⊢
  split
  · exact .throwStd
  · cases got with
    | nil =>
      refine Safe.bind (P := fun _ => True) (use_safe h fun ls e => trivial) fun s' _ => ?_
      rw [if_pos (by decide)]
      exact .throwStd
    | cons b bs =>
      rw [List.length_cons] at h3
      refine Safe.bind (P := Q) (use_safe h fun ls e => hq _ ls e h1 (by dsimp only; omega)) fun s' h' => ?_
      split
      · exact .throwStd
      · exact .ok h'

theorem readKey_safe {Q : BsonP → Prop} {s : BsonP} (hi : In s.inp) (h : 0 < s.left.length)
    (hq : ∀ inp key type ls, ls.length = s.left.length → In inp → rem inp + 1 < rem s.inp → Q { s with inp := inp, key := key, type := type, left := ls }) :
    Safe Q s.readKey := by
  unfold BsonP.readKey
  refine (read_safe hi 1).bind ?_
  rintro ⟨got, good, i'⟩ ⟨h1, h2, h3⟩
  dsimp only at h1 h2 h3 ⊢
  split
  · exact .throwStd
  · refine (readTo_safe h1 0x00).bind ?_
    rintro ⟨key, good', i''⟩ h4
    dsimp only at h4 ⊢
    split
    · exact .throwStd
    · next hg' =>
      obtain ⟨h5, h6⟩ := h4 (by simpa using hg')
      exact use_safe (by exact h) fun ls e => hq _ _ _ ls e h5 (by dsimp only; omega)

/-- The start of a map or of an array. -/
theorem start_safe {inp : StrIn} {c : BCont} {cs : List BCont} {left size : List Int} {t : Tok} {key : Bytes} {type : Byte} (hi : In inp) (hz : size.length = left.length)
    (ht : t = .MapStart ∨ t = .ArrayStart) (hc : c ≠ .Value) (hl : Lvl cs left.length) :
    Safe (fun x => Inv x.2 ∧ A x.1 x.2 ∧ m x.2 + w x.1 ≤ m ⟨inp, c :: cs, left, size, t, key, type, false⟩)
      (BStrJ.handOut j ⟨inp, c :: cs, left, size, t, key, type, false⟩) := by
  have hm : m ⟨inp, c :: cs, left, size, t, key, type, false⟩ = 2 * rem inp + 1 := by rcases ht with rfl | rfl <;> rfl
  rw [hm]
  have key : BStrJ.handOut j ⟨inp, c :: cs, left, size, t, key, type, false⟩ = (do
      let (n, inp) ← BStrJ.readLE j 4 inp
      return (t, ⟨inp, c :: cs, (n - 4) :: left, n :: size, if (n - 4 - 1) % (2 ^ 64 : Int) = 0 then (if c = .Map then .MapEnd else .ArrayEnd) else .Key, key, type, false⟩)) := by
    rcases ht with rfl | rfl
    all_goals
      unfold BStrJ.handOut BStrJ.openLevel
      dsimp only
      cases BStrJ.readLE j 4 inp with
      | ok x => simp only [Res.ok_bind, Res.pure_eq]; split <;> rfl
      | throw e => rfl
      | ub => rfl
  rw [key]
  refine (readLE_safe j hi 4).bind ?_
  rintro ⟨n, inp'⟩ ⟨h1, hr⟩
  dsimp only at h1 hr ⊢
  refine .ok ⟨⟨h1, ?_, ?_, fun e => by cases e⟩, ⟨by rcases ht with rfl | rfl <;> simp, fun e => by rcases ht with rfl | rfl <;> cases e⟩, ?_⟩
  · simp [hz]
  · show Fits (if _ then _ else _) (c :: cs) (left.length + 1)
    split
    · split <;> exact ⟨hl.cons hc, _, _, rfl, hc⟩
    · exact ⟨hl.cons hc, Nat.succ_pos _⟩
  · have hw := w_le t
    show 2 * rem inp' + pend (if _ then (if c = BCont.Map then .MapEnd else .ArrayEnd) else .Key) (c :: cs) + w t ≤ _
    have : pend (if (n - 4 - 1) % (2 ^ 64 : Int) = 0 then (if c = .Map then .MapEnd else .ArrayEnd) else .Key) (c :: cs) = 0 := by
      split
      · split <;> rfl
      · rfl
    omega

/-- The end of a map or of an array. -/
theorem end_safe {inp : StrIn} {c : BCont} {cs : List BCont} {left size : List Int} {t : Tok} {key : Bytes} {type : Byte} (hi : In inp) (hz : size.length = left.length)
    (ht : t = .MapEnd ∨ t = .ArrayEnd) (hc : c ≠ .Value) (hl : Lvl (c :: cs) left.length) :
    Safe (fun x => Inv x.2 ∧ A x.1 x.2 ∧ m x.2 + w x.1 ≤ m ⟨inp, c :: cs, left, size, t, key, type, false⟩)
      (BStrJ.handOut j ⟨inp, c :: cs, left, size, t, key, type, false⟩) := by
  have hm : m ⟨inp, c :: cs, left, size, t, key, type, false⟩ = 2 * rem inp := by rcases ht with rfl | rfl <;> rfl
  rw [hm]
  obtain ⟨k, hk, hl'⟩ := hl.inv hc
  have hw := w_le t
  have hA : ∀ s, A t s := fun s => ⟨by rcases ht with rfl | rfl <;> simp, fun e => by rcases ht with rfl | rfl <;> cases e⟩
  suffices h : Safe (fun x => Inv x.2 ∧ A x.1 x.2 ∧ m x.2 + w x.1 ≤ 2 * rem inp) (do
      let s ← BsonP.readEnd ⟨inp, c :: cs, left, size, t, key, type, false⟩
      match s.conts, s.left, s.size with
      | [_], _ :: ls, _ :: zs => return (t, { s with conts := [], left := ls, size := zs, next := .DocEnd })
      | _ :: c :: cs, _ :: l :: ls, z :: zs => do
        let s := { s with conts := c :: cs, left := (l - z) :: ls, size := zs }
        match ← s.endToken with
        | some t' => return (t, { s with next := t' })
        | none => return (t, { s with next := .Key })
      | _, _, _ => .ub) by
    rcases ht with rfl | rfl <;> exact h
  refine Safe.bind (P := fun s => ∃ inp' ls, ls.length = left.length ∧ In inp' ∧ rem inp' < rem inp ∧ s = ⟨inp', c :: cs, ls, size, t, key, type, false⟩)
    (readEnd_safe hi (by dsimp only; omega) fun inp' ls h1 hi' h2 => ⟨inp', ls, h1, hi', h2, rfl⟩) ?_
  rintro _ ⟨inp', ls, h1, hi', h2, rfl⟩
  dsimp only
  cases ls with
  | nil => rw [List.length_nil] at h1; omega
  | cons l ls =>
    cases size with
    | nil => rw [List.length_nil] at hz; omega
    | cons z zs =>
      rw [List.length_cons] at h1 hz
      cases cs with
      | nil =>
        cases hl'
        refine .ok ⟨⟨hi', by dsimp only; omega, .inl rfl, fun e => by cases e⟩, hA _, ?_⟩
        show 2 * rem inp' + 1 + w t ≤ _
        omega
      | cons c' cs =>
        have h0 := hl'.pos (by simp)
        cases ls with
        | nil => rw [List.length_nil] at h1; omega
        | cons l' ls =>
          rw [List.length_cons] at h1
          dsimp only
          have hlen : ((l' - z) :: ls).length = k := by rw [List.length_cons]; omega
          refine (endToken_safe (s := ⟨inp', c' :: cs, (l' - z) :: ls, zs, t, key, type, false⟩) (by dsimp only; rw [hlen]; exact hl') (Nat.succ_pos _)).bind ?_
          intro x hx
          cases x with
          | none =>
            refine .ok ⟨⟨hi', by dsimp only; omega, ⟨by dsimp only; rw [hlen]; exact hl', Nat.succ_pos _⟩, fun e => by cases e⟩, hA _, ?_⟩
            show 2 * rem inp' + 0 + w t ≤ _
            omega
          | some t' =>
            obtain ⟨g1, g2, -, -⟩ := hx t' rfl
            refine .ok ⟨⟨hi', by dsimp only; omega, g1, fun e => by cases e⟩, hA _, ?_⟩
            show 2 * rem inp' + pend t' (c' :: cs) + w t ≤ _
            dsimp only at g2
            omega

/-- Every token but `Key`. -/
theorem handOut_safe {s : BsonP} (h : Inv s) (hs : s.skip = false) :
    Safe (fun x => Inv x.2 ∧ A x.1 x.2 ∧ m x.2 + w x.1 ≤ m s) (BStrJ.handOut j s) := by
  obtain ⟨inp, conts, left, size, next, key, type, skip⟩ := s
  obtain ⟨hi, hz, hf, -⟩ := h
  dsimp only at hi hz hf hs
  subst hs
  cases next with
  | DocStart => exact hf.elim
  | Key => exact .throwStd
  | Error => exact .throwStd
  | MapStart =>
    obtain ⟨c, cs, rfl, hc, hl⟩ := hf
    exact start_safe j hi hz (.inl rfl) hc hl
  | ArrayStart =>
    obtain ⟨c, cs, rfl, hc, hl⟩ := hf
    exact start_safe j hi hz (.inr rfl) hc hl
  | MapEnd =>
    obtain ⟨hl, c, cs, rfl, hc⟩ := hf
    exact end_safe j hi hz (.inl rfl) hc hl
  | ArrayEnd =>
    obtain ⟨hl, c, cs, rfl, hc⟩ := hf
    exact end_safe j hi hz (.inr rfl) hc hl
  | Value => exact .ok ⟨⟨hi, hz, hf, fun _ => rfl⟩, ⟨by simp, fun _ => rfl⟩, Nat.le_refl _⟩
  | DocEnd =>
    unfold BStrJ.handOut
    dsimp only
    rcases hf with rfl | ⟨hl, h0⟩
    · exact .ok ⟨⟨hi, hz, trivial, fun e => by cases e⟩, ⟨by simp, fun e => by cases e⟩, Nat.le_refl _⟩
    · rw [if_pos hl]
      refine Safe.bind (P := fun s => ∃ inp' ls, ls.length = left.length ∧ In inp' ∧ rem inp' < rem inp ∧ s = ⟨inp', conts, ls, size, .DocEnd, key, type, false⟩)
        (readEnd_safe hi h0 fun inp' ls h1 hi' h2 => ⟨inp', ls, h1, hi', h2, rfl⟩) ?_
      rintro _ ⟨inp', ls, h1, hi', h2, rfl⟩
      refine .ok ⟨⟨hi', hz.trans h1.symm, trivial, fun e => by cases e⟩, ⟨by simp, fun e => by cases e⟩, ?_⟩
      show 2 * rem inp' + 0 + 1 ≤ 2 * rem inp + pend .DocEnd conts
      omega

theorem next_safe {s0 : BsonP} (h : Inv s0) : Safe (fun x => Inv x.2 ∧ A x.1 x.2 ∧ m x.2 + w x.1 ≤ m s0) (BStrJ.getNextToken j s0) := by
  unfold BStrJ.getNextToken
  refine (settle_safe h).bind ?_
  clear h
  rintro s ⟨h, hs, hm⟩
  split
  · next hk =>
    obtain ⟨inp, conts, left, size, next, key, type, skip⟩ := s
    obtain ⟨hi, hz, hf, -⟩ := h
    dsimp only at hi hz hf hs hk
    subst hs hk
    obtain ⟨hl, h0⟩ := hf
    refine Safe.bind (P := fun s => ∃ inp' key' type' ls, ls.length = left.length ∧ In inp' ∧ rem inp' + 1 < rem inp ∧ s = ⟨inp', conts, ls, size, .Key, key', type', false⟩)
      (readKey_safe hi h0 fun inp' key' type' ls h1 hi' h2 => ⟨inp', key', type', ls, h1, hi', h2, rfl⟩) ?_
    rintro _ ⟨inp', key', type', ls, h1, hi', h2, rfl⟩
    have hm' : 2 * rem inp + 0 ≤ m s0 := hm
    have hc := hl.open h0
    cases conts with
    | nil => exact absurd rfl hc
    | cons c cs =>
      dsimp only
      generalize hs2 : (if type' = 0x03 then (⟨inp', .Map :: c :: cs, ls, size, .MapStart, key', type', false⟩ : BsonP)
        else if type' = 0x04 then ⟨inp', .Array :: c :: cs, ls, size, .ArrayStart, key', type', false⟩
        else ⟨inp', c :: cs, ls, size, .Value, key', type', false⟩) = s2
      have h2' : Inv s2 ∧ s2.skip = false ∧ m s2 = 2 * rem inp' + 1 := by
        rw [← hs2]
        rw [← h1] at hl h0
        split
        · exact ⟨⟨hi', hz.trans h1.symm, ⟨_, _, rfl, by simp, hl⟩, fun e => by cases e⟩, rfl, rfl⟩
        · split
          · exact ⟨⟨hi', hz.trans h1.symm, ⟨_, _, rfl, by simp, hl⟩, fun e => by cases e⟩, rfl, rfl⟩
          · exact ⟨⟨hi', hz.trans h1.symm, ⟨hl, h0⟩, fun e => by cases e⟩, rfl, rfl⟩
      obtain ⟨g1, g2, g3⟩ := h2'
      split
      · refine .ok ⟨g1, ⟨by simp, fun e => by cases e⟩, ?_⟩
        show m s2 + 1 ≤ _
        omega
      · exact (handOut_safe j g1 g2).mono fun x hx => ⟨hx.1, hx.2.1, by have := hx.2.2; omega⟩
  · exact (handOut_safe j h hs).mono fun x hx => ⟨hx.1, hx.2.1, by have := hx.2.2; omega⟩

/-! ### values -/

/-- Only the input and the number of bytes left have changed. -/
def Moved (s s' : BsonP) : Prop := ∃ inp ls, ls.length = s.left.length ∧ (In s.inp → In inp) ∧ rem inp ≤ rem s.inp ∧ s' = { s with inp := inp, left := ls }

theorem Moved.inv {s s' : BsonP} (h : Moved s s') (hI : Inv s) : Inv s' ∧ m s' ≤ m s := by
  obtain ⟨inp, ls, h1, hi, h2, rfl⟩ := h
  refine ⟨⟨hi hI.inp, hI.sizes.trans h1.symm, ?_, hI.skip⟩, ?_⟩
  · show Fits s.next s.conts ls.length
    rw [h1]
    exact hI.fits
  · unfold m
    dsimp only
    omega

theorem Moved.step {s s' : BsonP} {inp : StrIn} (hi : In inp) (hr : rem inp ≤ rem s.inp) (h : Moved { s with inp := inp } s') : Moved s s' := by
  obtain ⟨inp', ls, h1, hi', h2, rfl⟩ := h
  exact ⟨inp', ls, h1, fun _ => hi' hi, Nat.le_trans h2 hr, rfl⟩

theorem Moved.trans {s s' s'' : BsonP} (h : Moved s s') (h' : Moved s' s'') : Moved s s'' := by
  obtain ⟨inp, ls, h1, hi, h2, rfl⟩ := h
  obtain ⟨inp', ls', h1', hi', h2', rfl⟩ := h'
  exact ⟨inp', ls', h1'.trans h1, fun h => hi' (hi h), Nat.le_trans h2' h2, rfl⟩

theorem Moved.din {s s' : BsonP} (h : Moved s s') (hi : In s.inp) : In s'.inp := by
  obtain ⟨inp, ls, h1, hi', h2, rfl⟩ := h
  exact hi' hi

theorem Moved.lft {s s' : BsonP} (h : Moved s s') (h0 : 0 < s.left.length) : 0 < s'.left.length := by
  obtain ⟨inp, ls, h1, -, h2, rfl⟩ := h
  exact h1.symm ▸ h0

theorem use_moved (n : Int) {s : BsonP} (h : 0 < s.left.length) : Safe (Moved s) (s.use n) :=
  use_safe h fun ls e => ⟨s.inp, ls, e, id, Nat.le_refl _, rfl⟩

theorem readInt_moved (n : Nat) {s : BsonP} (hi : In s.inp) (h : 0 < s.left.length) : Safe (fun x => Moved s x.2) (BStrJ.readInt j n s) := by
  unfold BStrJ.readInt
  refine (use_moved n h).bind fun s' h' => ?_
  obtain ⟨inp, ls, h1, hi', h2, rfl⟩ := h'
  refine (readLE_safe j (hi' hi) n).bind ?_
  rintro ⟨v, inp'⟩ ⟨h3, h4⟩
  exact .ok ⟨_, ls, h1, fun _ => h3, Nat.le_trans h4 h2, rfl⟩

theorem getInt_moved (k : IntKind) {s : BsonP} (hi : In s.inp) (h : 0 < s.left.length) : Safe (fun x => Moved s x.2) (BStrJ.getInt j k s) := by
  unfold BStrJ.getInt
  repeat' split
  · exact (readInt_moved j 4 hi h).bind fun x hx => .ok hx
  · exact (readInt_moved j 8 hi h).bind fun x hx => .ok hx
  · exact .throwStd

theorem readDouble_moved {s : BsonP} (hi : In s.inp) (h : 0 < s.left.length) : Safe (fun x => Moved s x.2) (BStrJ.readDouble j s) := by
  unfold BStrJ.readDouble
  refine (read_safe hi 8).bind ?_
  rintro ⟨got, good, i'⟩ ⟨h1, -, h2⟩
  dsimp only at h1 h2 ⊢
  split
  · exact .throwStd
  · refine (use_moved 8 (by exact h)).bind fun s' h' => ?_
    have h' := h'.step h1 (by omega)
    split <;> exact .ok h'

theorem getFlt_moved (f : FKind) {s : BsonP} (hi : In s.inp) (h : 0 < s.left.length) : Safe (fun x => Moved s x.2) (BStrJ.getFlt j f s) := by
  unfold BStrJ.getFlt
  repeat' split
  · exact (readInt_moved j 4 hi h).bind fun x hx => .ok hx
  · exact (readInt_moved j 8 hi h).bind fun x hx => .ok hx
  · exact (readDouble_moved j hi h).bind fun x hx => .ok hx
  · exact .throwStd

theorem getBool_moved {s : BsonP} (hi : In s.inp) (h : 0 < s.left.length) : Safe (fun x => Moved s x.2) (BStrJ.getBool j s) := by
  unfold BStrJ.getBool
  split
  · exact .throwStd
  · refine (read_safe hi 1).bind ?_
    rintro ⟨got, good, i'⟩ ⟨h1, -, h2⟩
    dsimp only at h1 h2 ⊢
    split
    · exact .throwStd
    · refine (use_moved 1 (by exact h)).bind fun s' h' => ?_
      have h' := h'.step h1 (by omega)
      split <;> exact .ok h'

theorem getStr_moved {s : BsonP} (hi : In s.inp) (h : 0 < s.left.length) : Safe (fun x => Moved s x.2) (BStrJ.getStr j s) := by
  unfold BStrJ.getStr
  split
  · exact .throwStd
  · refine (readLE_safe j hi 4).bind ?_
    rintro ⟨n, i'⟩ ⟨h1, h2⟩
    dsimp only at h1 h2 ⊢
    refine (use_moved 4 (by exact h)).bind fun s' h' => ?_
    have h' := h'.step h1 (by omega)
    split
    · exact .throwStd
    · refine (read_safe (h'.din hi) n.toNat).bind ?_
      rintro ⟨got, good, i''⟩ ⟨h3, -, h4⟩
      dsimp only at h3 h4 ⊢
      split
      · exact .throwStd
      · refine (use_moved _ (by exact h'.lft h)).bind fun s'' h'' => ?_
        split
        · exact .throwStd
        · exact .ok (h'.trans (h''.step h3 (by omega)))

theorem Moved.refl (s : BsonP) : Moved s s := ⟨s.inp, s.left, rfl, id, Nat.le_refl _, rfl⟩

theorem Inv.lft {s : BsonP} (h : Inv s) (hs : s.skip = true) : 0 < s.left.length := by
  have := h.fits
  rw [h.skip hs] at this
  exact this.2

theorem ignoreData_null {s : BsonP} (hn : s.isValueNull = true) : BStrJ.ignoreDataValue j s = .ok s := by
  have hn : s.type = 0x0A := of_decide_eq_true hn
  unfold BStrJ.ignoreDataValue
  rw [hn]
  split <;> rfl

theorem value_safe {α : Type} {s : BsonP} {r : Res (α × BsonP)} (h : Inv s) (ha : A .Value s) (hr : In s.inp → 0 < s.left.length → Safe (fun x => Moved s x.2) r) :
    Safe (fun x => Inv x.2 ∧ m x.2 < m s + w .Value) r :=
  (hr h.inp (h.lft (ha.2 rfl))).mono fun _ hx => ⟨(hx.inv h).1, Nat.lt_succ_of_le (hx.inv h).2⟩

theorem bson_ends {st : ParseType} (hst : st ≠ .Weak) : Halts (BStrJ.ops j) true true true (fun _ => Inv) (fun _ => A) m w st where
  error := rfl
  mapStart := by decide
  arrayStart := by decide
  loose _ _ _ _ h := h
  keyTok h := by cases h
  next _ s h := next_safe j h
  getKey _ t s _ h _ ha := by
    refine .ok ⟨h, .inl ?_⟩
    have : w t = 1 := by
      rcases ha with ⟨-, rfl⟩ | ha
      · rfl
      · exact w_pos ha.1
    dsimp only
    omega
  getInt _ k _ s h ha := value_safe h ha (getInt_moved j k)
  getFlt _ f _ s h ha := value_safe h ha (getFlt_moved j f)
  getBool _ s h ha := value_safe h ha (getBool_moved j)
  getStr _ s h ha := value_safe h ha (getStr_moved j)
  null _ t s h ha hn := by
    have : w t = 1 := by
      rcases ha with ⟨-, rfl⟩ | ha
      · rfl
      · exact w_pos ha.1
    show Safe _ (BStrJ.ignoreDataValue j s)
    rw [ignoreData_null j hn]
    exact .ok ⟨h, by omega, fun _ => by omega⟩
  skip hw := absurd hw hst

theorem start_inv (c : BCont) (t : Bytes) : Safe (fun x => Inv x.2) (BStrJ.getNextToken j (BsonP.ofBytes c t)) := by
  cases c with
  | Map => exact .ok ⟨Nat.zero_le _, rfl, ⟨_, _, rfl, by simp, .nil⟩, fun e => by cases e⟩
  | Array => exact .ok ⟨Nat.zero_le _, rfl, ⟨_, _, rfl, by simp, .nil⟩, fun e => by cases e⟩
  | Value =>
    have e : BStrJ.getNextToken j (BsonP.ofBytes .Value t) = (do
        let (n, inp) ← BStrJ.readLE j 4 (StrIn.ofBytes t)
        return (.DocStart, ⟨inp, [.Value, .Value], [n - 4], [n], .Key, [], 0x00, false⟩)) := by
      show (BStrJ.openLevel j _ >>= _) = _
      unfold BStrJ.openLevel
      dsimp only [BsonP.ofBytes]
      cases BStrJ.readLE j 4 (StrIn.ofBytes t) <;> rfl
    rw [e]
    refine (readLE_safe j (Nat.zero_le _) 4).bind ?_
    rintro ⟨n, inp⟩ ⟨h1, -⟩
    exact .ok ⟨h1, rfl, ⟨.doc, Nat.succ_pos _⟩, fun e => by cases e⟩

theorem import_ends {env : Env} (hT : SoundTypes env true true) (cfg : Cfg) (c : BCont) (ty : Ty) (old : Val) (t : Bytes) (hst : cfg.strict ≠ .Weak) (hS : Sound env true true ty)
    (hO : Shaped env ty old) : importValue (BStrJ.ops j) env cfg ty old (PI.init (BsonP.ofBytes c t)) ≠ .ub := by
  suffices h : Safe (fun _ => True) (importValue (BStrJ.ops j) env cfg ty old (PI.init (BsonP.ofBytes c t))) from h.ne_ub
  unfold importValue
  have hg : Safe (fun x => EClean (fun _ => Inv) [] x.2) ((PI.init (BsonP.ofBytes c t)).getToken (BStrJ.ops j)) := by
    show Safe _ (do let (t, s) ← BStrJ.getNextToken j (BsonP.ofBytes c t); return (t, (⟨s, .Error, .Error⟩ : PI BsonP)))
    exact (start_inv j c t).bind fun x hx => .ok ⟨hx, rfl, rfl⟩
  refine hg.bind ?_
  rintro ⟨k, p⟩ hp
  dsimp only at hp ⊢
  split
  · exact .throwStd
  · refine (deser_ends (cfg := cfg) (bson_ends j hst) hT _ ty old _ p hS hO hp.pre (Nat.lt_succ_self _)).bind ?_
    rintro ⟨v, p⟩ ⟨h1, -, -, -⟩
    dsimp only at h1 ⊢
    refine ((h1.pre (bson_ends j hst)).getToken (bson_ends j hst)).bind ?_
    rintro ⟨k, p⟩ -
    dsimp only
    split
    · exact .throwStd
    · exact .ok trivial

end BStrEnds
end Thors
