import Verif.Spec.BsonEnds
import Verif.Proofs.Ends
import Verif.Proofs.Lower
/-
An import of BSON from a stream comes to an end without undefined behaviour other than indeterminate values.
-/
namespace Thors
open Spec StrIn

namespace BEnds
variable (j : BIndet)

/-! ### where nothing is indeterminate the two parsers are the same -/

theorem low_le (n : Nat) (i : IStr) : i.readLE n = .ub ∨ i.readLE n = .ok (BJ.readLE j n i) := by
  unfold IStr.readLE BJ.readLE
  dsimp only
  split
  · exact .inl rfl
  · exact .inr rfl

theorem low_open (s : BsonS) : Low s.openLevel (.ok (BJ.openLevel j s)) := by
  unfold BsonS.openLevel BJ.openLevel
  rcases low_le j 4 s.inp with e | e <;> rw [e]
  · exact .inl rfl
  · exact .inr rfl

theorem low_handOut (s : BsonS) : Low s.handOut (BJ.handOut j s) := by
  obtain ⟨inp, conts, left, size, next, key, type, skip⟩ := s
  unfold BsonS.handOut BJ.handOut
  cases next with
  | DocStart =>
    dsimp only
    cases conts with
    | nil => exact .same _
    | cons c cs =>
      cases c with
      | Map => exact .same _
      | Array => exact .same _
      | Value =>
        dsimp only
        rcases low_open j ⟨inp, .Value :: .Value :: cs, left, size, .Key, key, type, skip⟩ with e | e <;> rw [e]
        · exact .inl rfl
        · exact .inr rfl
  | MapStart | ArrayStart =>
    dsimp only
    rcases low_open j ⟨inp, conts, left, size, _, key, type, skip⟩ with e | e <;> rw [e]
    · exact .inl rfl
    · exact .inr rfl
  | _ => exact .same _

theorem low_next (s : BsonS) : Low s.getNextToken (BJ.getNextToken j s) := by
  unfold BsonS.getNextToken BJ.getNextToken
  refine (Low.same _).bind fun s => ?_
  refine .ite ((Low.same _).bind fun s => ?_) (low_handOut j s)
  obtain ⟨inp, conts, left, size, next, key, type, skip⟩ := s
  cases conts with
  | nil => exact .same _
  | cons c cs => exact .ite (.same _) (low_handOut j _)

theorem low_bool (got : Bytes) (s : BsonS) (b : Bool) :
    Low (match got with | [0x00] => .ok (false, s) | [0x01] => .ok (true, s) | _ => (.ub : Res (Bool × BsonS)))
      (match got with | [0x00] => .ok (false, s) | [0x01] => .ok (true, s) | _ => .ok (b, s)) := by
  split
  · exact .same _
  · exact .same _
  · exact .inl rfl

theorem low_readInt (n : Nat) (s : BsonS) : Low (s.readInt n) (BJ.readInt j n s) := by
  unfold BsonS.readInt BJ.readInt
  refine (Low.same _).bind fun s => ?_
  rcases low_le j n s.inp with e | e <;> rw [e]
  · exact .inl rfl
  · exact .inr rfl

theorem low_ignoreSized (x : Int) (s : BsonS) : Low (s.ignoreSized x) (BJ.ignoreSized j x s) := by
  unfold BsonS.ignoreSized BJ.ignoreSized
  rcases low_le j 4 s.inp with e | e <;> rw [e]
  · exact .inl rfl
  · simp only [Res.ok_bind]
    split
    · exact .inl rfl
    · exact .same _

theorem low_ops : LowOps BsonS.ops (BJ.ops j) where
  next := low_next j
  getKey _ := .same _
  getInt k s := by
    show Low (s.getInt k) (BJ.getInt j k s)
    unfold BsonS.getInt BJ.getInt
    exact .ite ((low_readInt j 4 s).bind fun _ => .same _) (.ite ((low_readInt j 8 s).bind fun _ => .same _) (.same _))
  getFlt f s := by
    show Low (s.getFlt f) (BJ.getFlt j f s)
    unfold BsonS.getFlt BJ.getFlt
    exact .ite ((low_readInt j 4 s).bind fun _ => .same _) (.ite ((low_readInt j 8 s).bind fun _ => .same _) (.same _))
  getBool s := by
    show Low s.getBool (BJ.getBool j s)
    unfold BsonS.getBool BJ.getBool BsonS.readBool
    exact .ite (.same _) (.ite (.same _) ((Low.same _).bind fun s => low_bool _ s _))
  getStr s := by
    show Low s.getStr (BJ.getStr j s)
    unfold BsonS.getStr BJ.getStr BsonS.readString
    refine .ite (.same _) ?_
    rcases low_le j 4 s.inp with e | e <;> rw [e]
    · exact .inl rfl
    · simp only [Res.ok_bind]
      refine (Low.same _).bind fun s => ?_
      split
      · next h => rw [if_pos (by simpa using h)]; exact .same _
      · refine .ite (.same _) ((Low.same _).bind fun s => ?_)
        simp only [List.length_nil, Int.natCast_zero, Int.zero_add, List.nil_append]
        exact .same _
  isNull _ := rfl
  ignoreData s := by
    show Low s.ignoreDataValue (BJ.ignoreDataValue j s)
    unfold BsonS.ignoreDataValue BJ.ignoreDataValue
    repeat' first | exact low_ignoreSized j _ _ | exact Low.same _ | apply Low.ite

theorem import_low {σ : Type} {o o' : POps σ} (L : LowOps o o') (env : Env) (cfg : Cfg) (ty : Ty) (old : Val) (p : PI σ) :
    Low (importValue o env cfg ty old p) (importValue o' env cfg ty old p) := by
  unfold importValue
  refine (getToken_low L p).bind fun x => .ite (.same _) ((deser_low L env cfg ty old _).bind fun y => (getToken_low L _).bind fun z => .same _)

/-! ### the input -/

def rem (i : IStr) : Nat := i.data.length - i.pos

theorem read_rem (i : IStr) (n : Nat) : rem (i.read n).2.2 ≤ rem i := by
  unfold IStr.read rem
  dsimp only
  repeat' split
  all_goals (dsimp only; omega)

theorem read_one {i : IStr} {n : Nat} (h : (i.read n).2.1 = true) : (i.read n).1.length = n ∧ rem (i.read n).2.2 + n ≤ rem i := by
  unfold IStr.read at h ⊢
  dsimp only at h ⊢
  split at h
  · cases h
  · next hg =>
    rw [if_neg hg]
    split at h
    · next hl =>
      rw [if_pos hl]
      refine ⟨hl, ?_⟩
      rw [List.length_take, List.length_drop] at hl
      unfold rem
      dsimp only
      omega
    · cases h

theorem getline_rem {i : IStr} {d : Byte} (h : (i.getline d).2.1 = true) : rem (i.getline d).2.2 < rem i := by
  unfold IStr.getline at h ⊢
  dsimp only at h ⊢
  split at h
  · cases h
  · next hg =>
    rw [if_neg hg]
    split at h
    · next hl => rw [if_pos hl]; unfold rem; dsimp only; omega
    · next hl =>
      rw [if_neg hl]
      split at h
      · cases h
      · next hn =>
        rw [if_neg hn]
        unfold rem
        dsimp only
        by_cases hp : i.pos < i.data.length
        · omega
        · rw [List.drop_of_length_le (by omega)] at hn
          exact absurd rfl hn

theorem readLE_rem (n : Nat) (i : IStr) : rem (BJ.readLE j n i).2 ≤ rem i := by
  unfold BJ.readLE
  dsimp only
  have := read_rem i n
  split <;> exact this

theorem ignore_rem (i : IStr) (n : Int) : rem (i.ignoreInt n) ≤ rem i := by
  unfold IStr.ignoreInt IStr.ignore rem
  repeat' split
  all_goals (try dsimp only); omega

/-! ### the invariant -/

/-- The open containers, and how many sizes there are for them. -/
inductive Lvl : List BCont → Nat → Prop
  | nil : Lvl [] 0
  | doc : Lvl [.Value, .Value] 1
  | map {cs : List BCont} {n : Nat} : Lvl cs n → Lvl (.Map :: cs) (n + 1)
  | arr {cs : List BCont} {n : Nat} : Lvl cs n → Lvl (.Array :: cs) (n + 1)

theorem Lvl.pos {cs : List BCont} {n : Nat} (h : Lvl cs n) (hc : cs ≠ []) : 0 < n := by
  cases h
  · exact absurd rfl hc
  all_goals omega

theorem Lvl.open {cs : List BCont} {n : Nat} (h : Lvl cs n) (hn : 0 < n) : cs ≠ [] := by
  cases h
  · omega
  all_goals simp

theorem Lvl.cons {c : BCont} {cs : List BCont} {n : Nat} (hc : c ≠ .Value) (h : Lvl cs n) : Lvl (c :: cs) (n + 1) := by
  cases c with
  | Map => exact .map h
  | Array => exact .arr h
  | Value => exact absurd rfl hc

theorem Lvl.inv {c : BCont} {cs : List BCont} {n : Nat} (hc : c ≠ .Value) (h : Lvl (c :: cs) n) : ∃ k, n = k + 1 ∧ Lvl cs k := by
  cases h with
  | doc => exact absurd rfl hc
  | map h => exact ⟨_, rfl, h⟩
  | arr h => exact ⟨_, rfl, h⟩

/-- The stacks, according to the token that is next. -/
def Fits : Tok → List BCont → Nat → Prop
  | .MapStart, cs, n | .ArrayStart, cs, n => ∃ c cs', cs = c :: cs' ∧ c ≠ .Value ∧ Lvl cs' n
  | .Key, cs, n | .Value, cs, n => Lvl cs n ∧ 0 < n
  | .MapEnd, cs, n | .ArrayEnd, cs, n => Lvl cs n ∧ ∃ c cs', cs = c :: cs' ∧ c ≠ .Value
  | .DocEnd, cs, n => cs = [] ∨ (cs.head? = some .Value ∧ 0 < n)
  | .DocStart, _, _ => False
  | .Error, _, _ => True

structure Inv (s : BsonS) : Prop where
  sizes : s.size.length = s.left.length
  fits : Fits s.next s.conts s.left.length
  skip : s.skip = true → s.next = .Value

/-- What a token that is next still needs besides bytes. -/
def pend : Tok → List BCont → Nat
  | .MapStart, _ | .ArrayStart, _ | .Value, _ => 1
  | .DocEnd, [] => 1
  | _, _ => 0

def m (s : BsonS) : Nat := 2 * rem s.inp + if s.skip then 0 else pend s.next s.conts

def w : Tok → Nat
  | .Error => 0
  | _ => 1

def A (t : Tok) (s : BsonS) : Prop := t ≠ .Error ∧ (t = .Value → s.skip = true)

theorem use_safe {Q : BsonS → Prop} {s : BsonS} {n : Int} (h : 0 < s.left.length)
    (hq : ∀ ls, ls.length = s.left.length → Q { s with left := ls }) : Safe Q (s.use n) := by
  unfold BsonS.use
  split
  · next e => rw [e] at h; cases h
  · next l ls e => exact .ok (hq _ (by rw [e]; rfl))

/-- What `endToken` says. -/
theorem endToken_safe {s : BsonS} (h : Lvl s.conts s.left.length) (h0 : 0 < s.left.length) :
    Safe (fun x => ∀ t, x = some t → Fits t s.conts s.left.length ∧ pend t s.conts = 0 ∧ t ≠ .Value ∧ t ≠ .Key) s.endToken := by
  have hc := h.open h0
  obtain ⟨inp, conts, left, size, next, key, type, skip⟩ := s
  unfold BsonS.endToken
  dsimp only at h h0 hc ⊢
  cases left with
  | nil => cases h0
  | cons l ls =>
    dsimp only
    split
    · cases conts with
      | nil => exact absurd rfl hc
      | cons c cs =>
        cases c with
        | Map => exact .ok fun t e => by cases e; exact ⟨⟨h, _, _, rfl, by simp⟩, rfl, by simp, by simp⟩
        | Array => exact .ok fun t e => by cases e; exact ⟨⟨h, _, _, rfl, by simp⟩, rfl, by simp, by simp⟩
        | Value => exact .ok fun t e => by cases e; exact ⟨.inr ⟨rfl, h0⟩, rfl, by simp, by simp⟩
    · exact .ok fun t e => by cases e

theorem settle_safe {s : BsonS} (h : Inv s) : Safe (fun s' => Inv s' ∧ s'.skip = false ∧ m s' ≤ m s) s.settle := by
  unfold BsonS.settle
  split
  · next hs =>
    have hf := h.fits
    rw [h.skip hs] at hf
    refine (endToken_safe hf.1 hf.2).bind ?_
    intro x hx
    cases x with
    | none =>
      refine .ok ⟨⟨h.sizes, hf, fun e => by cases e⟩, rfl, ?_⟩
      unfold m; simp [hs, pend]
    | some t =>
      obtain ⟨g1, g2, -, -⟩ := hx t rfl
      refine .ok ⟨⟨h.sizes, g1, fun e => by cases e⟩, rfl, ?_⟩
      unfold m; simp [hs, g2]
  · next hs => exact .ok ⟨h, by simpa using hs, Nat.le_refl _⟩

theorem readEnd_safe {Q : BsonS → Prop} {s : BsonS} (h : 0 < s.left.length)
    (hq : ∀ inp ls, ls.length = s.left.length → rem inp < rem s.inp → Q { s with inp := inp, left := ls }) : Safe Q s.readEnd := by
  unfold BsonS.readEnd
  dsimp only
  split
  · exact .throwStd
  · next hg =>
    have hr := (read_one (i := s.inp) (n := 1) (by simpa using hg)).2
    refine Safe.bind (P := Q) (use_safe h fun ls e => hq _ ls e (Nat.lt_of_succ_le hr)) fun s' h' => ?_
    split
    · exact .throwStd
    · exact .ok h'

theorem readKey_safe {Q : BsonS → Prop} {s : BsonS} (h : 0 < s.left.length)
    (hq : ∀ inp key type ls, ls.length = s.left.length → rem inp + 1 < rem s.inp → Q { s with inp := inp, key := key, type := type, left := ls }) :
    Safe Q s.readKey := by
  unfold BsonS.readKey
  dsimp only
  split
  · exact .throwStd
  · next hg =>
    split
    · exact .throwStd
    · next hg' =>
      have hr := (read_one (i := s.inp) (n := 1) (by simpa using hg)).2
      have hr' := getline_rem (by simpa using hg')
      exact use_safe (by exact h) fun ls e => hq _ _ _ ls e (Nat.lt_of_lt_of_le (Nat.succ_lt_succ hr') hr)

theorem w_le (t : Tok) : w t ≤ 1 := by cases t <;> decide

/-- The start of a map or of an array. -/
theorem start_safe {inp : IStr} {c : BCont} {cs : List BCont} {left size : List Int} {t : Tok} {key : Bytes} {type : Byte} (hz : size.length = left.length)
    (ht : t = .MapStart ∨ t = .ArrayStart) (hc : c ≠ .Value) (hl : Lvl cs left.length) :
    Safe (fun x => Inv x.2 ∧ A x.1 x.2 ∧ m x.2 + w x.1 ≤ m ⟨inp, c :: cs, left, size, t, key, type, false⟩)
      (BJ.handOut j ⟨inp, c :: cs, left, size, t, key, type, false⟩) := by
  have hr := readLE_rem j 4 inp
  have hm : m ⟨inp, c :: cs, left, size, t, key, type, false⟩ = 2 * rem inp + 1 := by rcases ht with rfl | rfl <;> rfl
  rw [hm]
  have key : BJ.handOut j ⟨inp, c :: cs, left, size, t, key, type, false⟩ =
      .ok (t, { BJ.openLevel j ⟨inp, c :: cs, left, size, t, key, type, false⟩ with
        next := if ((BJ.readLE j 4 inp).1 - 4 - 1) % (2 ^ 64 : Int) = 0 then (if c = .Map then .MapEnd else .ArrayEnd) else .Key }) := by
    rcases ht with rfl | rfl
    all_goals
      unfold BJ.handOut BJ.openLevel
      dsimp only
      split <;> rfl
  rw [key]
  refine .ok ⟨⟨?_, ?_, fun e => by cases e⟩, ⟨by rcases ht with rfl | rfl <;> simp, fun e => by rcases ht with rfl | rfl <;> cases e⟩, ?_⟩
  · simp [BJ.openLevel, hz]
  · show Fits (if _ then _ else _) (c :: cs) (left.length + 1)
    split
    · split <;> exact ⟨hl.cons hc, _, _, rfl, hc⟩
    · exact ⟨hl.cons hc, Nat.succ_pos _⟩
  · have hw := w_le t
    show 2 * rem (BJ.readLE j 4 inp).2 + pend (if _ then (if c = BCont.Map then .MapEnd else .ArrayEnd) else .Key) (c :: cs) + w t ≤ _
    have : pend (if ((BJ.readLE j 4 inp).1 - 4 - 1) % (2 ^ 64 : Int) = 0 then (if c = .Map then .MapEnd else .ArrayEnd) else .Key) (c :: cs) = 0 := by
      split
      · split <;> rfl
      · rfl
    omega

/-- The end of a map or of an array. -/
theorem end_safe {inp : IStr} {c : BCont} {cs : List BCont} {left size : List Int} {t : Tok} {key : Bytes} {type : Byte} (hz : size.length = left.length)
    (ht : t = .MapEnd ∨ t = .ArrayEnd) (hc : c ≠ .Value) (hl : Lvl (c :: cs) left.length) :
    Safe (fun x => Inv x.2 ∧ A x.1 x.2 ∧ m x.2 + w x.1 ≤ m ⟨inp, c :: cs, left, size, t, key, type, false⟩)
      (BJ.handOut j ⟨inp, c :: cs, left, size, t, key, type, false⟩) := by
  have hm : m ⟨inp, c :: cs, left, size, t, key, type, false⟩ = 2 * rem inp := by rcases ht with rfl | rfl <;> rfl
  rw [hm]
  obtain ⟨k, hk, hl'⟩ := hl.inv hc
  have hw := w_le t
  have hA : ∀ s, A t s := fun s => ⟨by rcases ht with rfl | rfl <;> simp, fun e => by rcases ht with rfl | rfl <;> cases e⟩
  suffices h : Safe (fun x => Inv x.2 ∧ A x.1 x.2 ∧ m x.2 + w x.1 ≤ 2 * rem inp) (do
      let s ← BsonS.readEnd ⟨inp, c :: cs, left, size, t, key, type, false⟩
      match s.conts, s.left, s.size with
      | [_], _ :: ls, _ :: zs => return (t, { s with conts := [], left := ls, size := zs, next := .DocEnd })
      | _ :: c :: cs, _ :: l :: ls, z :: zs => do
        let s := { s with conts := c :: cs, left := (l - z) :: ls, size := zs }
        match ← s.endToken with
        | some t' => return (t, { s with next := t' })
        | none => return (t, { s with next := .Key })
      | _, _, _ => .ub) by
    rcases ht with rfl | rfl <;> exact h
  refine Safe.bind (P := fun s => ∃ inp' ls, ls.length = left.length ∧ rem inp' < rem inp ∧ s = ⟨inp', c :: cs, ls, size, t, key, type, false⟩)
    (readEnd_safe (by dsimp only; omega) fun inp' ls h1 h2 => ⟨inp', ls, h1, h2, rfl⟩) ?_
  rintro _ ⟨inp', ls, h1, h2, rfl⟩
  dsimp only
  cases ls with
  | nil => rw [List.length_nil] at h1; omega
  | cons l ls =>
    cases size with
    | nil => rw [List.length_nil] at hz; omega
    | cons z zs =>
      rw [List.length_cons] at h1 hz
      cases cs with
      | nil =>
        cases hl'
        refine .ok ⟨⟨by dsimp only; omega, .inl rfl, fun e => by cases e⟩, hA _, ?_⟩
        show 2 * rem inp' + 1 + w t ≤ _
        omega
      | cons c' cs =>
        have h0 := hl'.pos (by simp)
        cases ls with
        | nil => rw [List.length_nil] at h1; omega
        | cons l' ls =>
          rw [List.length_cons] at h1
          dsimp only
          have hlen : ((l' - z) :: ls).length = k := by rw [List.length_cons]; omega
          refine (endToken_safe (s := ⟨inp', c' :: cs, (l' - z) :: ls, zs, t, key, type, false⟩) (by dsimp only; rw [hlen]; exact hl') (Nat.succ_pos _)).bind ?_
          intro x hx
          cases x with
          | none =>
            refine .ok ⟨⟨by dsimp only; omega, ⟨by dsimp only; rw [hlen]; exact hl', Nat.succ_pos _⟩, fun e => by cases e⟩, hA _, ?_⟩
            show 2 * rem inp' + 0 + w t ≤ _
            omega
          | some t' =>
            obtain ⟨g1, g2, -, -⟩ := hx t' rfl
            refine .ok ⟨⟨by dsimp only; omega, g1, fun e => by cases e⟩, hA _, ?_⟩
            show 2 * rem inp' + pend t' (c' :: cs) + w t ≤ _
            dsimp only at g2
            omega

/-- Every token but `Key`. -/
theorem handOut_safe {s : BsonS} (h : Inv s) (hs : s.skip = false) :
    Safe (fun x => Inv x.2 ∧ A x.1 x.2 ∧ m x.2 + w x.1 ≤ m s) (BJ.handOut j s) := by
  obtain ⟨inp, conts, left, size, next, key, type, skip⟩ := s
  obtain ⟨hz, hf, -⟩ := h
  dsimp only at hz hf hs
  subst hs
  cases next with
  | DocStart => exact hf.elim
  | Key => exact .throwStd
  | Error => exact .throwStd
  | MapStart =>
    obtain ⟨c, cs, rfl, hc, hl⟩ := hf
    exact start_safe j hz (.inl rfl) hc hl
  | ArrayStart =>
    obtain ⟨c, cs, rfl, hc, hl⟩ := hf
    exact start_safe j hz (.inr rfl) hc hl
  | MapEnd =>
    obtain ⟨hl, c, cs, rfl, hc⟩ := hf
    exact end_safe j hz (.inl rfl) hc hl
  | ArrayEnd =>
    obtain ⟨hl, c, cs, rfl, hc⟩ := hf
    exact end_safe j hz (.inr rfl) hc hl
  | Value => exact .ok ⟨⟨hz, hf, fun _ => rfl⟩, ⟨by simp, fun _ => rfl⟩, Nat.le_refl _⟩
  | DocEnd =>
    unfold BJ.handOut
    dsimp only
    rcases hf with rfl | ⟨hl, h0⟩
    · exact .ok ⟨⟨hz, trivial, fun e => by cases e⟩, ⟨by simp, fun e => by cases e⟩, Nat.le_refl _⟩
    · rw [if_pos hl]
      refine Safe.bind (P := fun s => ∃ inp' ls, ls.length = left.length ∧ rem inp' < rem inp ∧ s = ⟨inp', conts, ls, size, .DocEnd, key, type, false⟩)
        (readEnd_safe h0 fun inp' ls h1 h2 => ⟨inp', ls, h1, h2, rfl⟩) ?_
      rintro _ ⟨inp', ls, h1, h2, rfl⟩
      refine .ok ⟨⟨hz.trans h1.symm, trivial, fun e => by cases e⟩, ⟨by simp, fun e => by cases e⟩, ?_⟩
      show 2 * rem inp' + 0 + 1 ≤ 2 * rem inp + pend .DocEnd conts
      omega

theorem next_safe {s0 : BsonS} (h : Inv s0) : Safe (fun x => Inv x.2 ∧ A x.1 x.2 ∧ m x.2 + w x.1 ≤ m s0) (BJ.getNextToken j s0) := by
  unfold BJ.getNextToken
  refine (settle_safe h).bind ?_
  clear h
  rintro s ⟨h, hs, hm⟩
  split
  · next hk =>
    obtain ⟨inp, conts, left, size, next, key, type, skip⟩ := s
    obtain ⟨hz, hf, -⟩ := h
    dsimp only at hz hf hs hk
    subst hs hk
    obtain ⟨hl, h0⟩ := hf
    refine Safe.bind (P := fun s => ∃ inp' key' type' ls, ls.length = left.length ∧ rem inp' + 1 < rem inp ∧ s = ⟨inp', conts, ls, size, .Key, key', type', false⟩)
      (readKey_safe h0 fun inp' key' type' ls h1 h2 => ⟨inp', key', type', ls, h1, h2, rfl⟩) ?_
    rintro _ ⟨inp', key', type', ls, h1, h2, rfl⟩
    have hm' : 2 * rem inp + 0 ≤ m s0 := hm
    have hc := hl.open h0
    cases conts with
    | nil => exact absurd rfl hc
    | cons c cs =>
      dsimp only
      generalize hs2 : (if type' = 0x03 then (⟨inp', .Map :: c :: cs, ls, size, .MapStart, key', type', false⟩ : BsonS)
        else if type' = 0x04 then ⟨inp', .Array :: c :: cs, ls, size, .ArrayStart, key', type', false⟩
        else ⟨inp', c :: cs, ls, size, .Value, key', type', false⟩) = s2
      have h2' : Inv s2 ∧ s2.skip = false ∧ m s2 = 2 * rem inp' + 1 := by
        rw [← hs2]
        rw [← h1] at hl h0
        split
        · exact ⟨⟨hz.trans h1.symm, ⟨_, _, rfl, by simp, hl⟩, fun e => by cases e⟩, rfl, rfl⟩
        · split
          · exact ⟨⟨hz.trans h1.symm, ⟨_, _, rfl, by simp, hl⟩, fun e => by cases e⟩, rfl, rfl⟩
          · exact ⟨⟨hz.trans h1.symm, ⟨hl, h0⟩, fun e => by cases e⟩, rfl, rfl⟩
      obtain ⟨g1, g2, g3⟩ := h2'
      split
      · refine .ok ⟨g1, ⟨by simp, fun e => by cases e⟩, ?_⟩
        show m s2 + 1 ≤ _
        omega
      · exact (handOut_safe j g1 g2).mono fun x hx => ⟨hx.1, hx.2.1, by have := hx.2.2; omega⟩
  · exact (handOut_safe j h hs).mono fun x hx => ⟨hx.1, hx.2.1, by have := hx.2.2; omega⟩

/-! ### values -/

/-- Only the input and the number of bytes left have changed. -/
def Moved (s s' : BsonS) : Prop := ∃ inp ls, ls.length = s.left.length ∧ rem inp ≤ rem s.inp ∧ s' = { s with inp := inp, left := ls }

theorem Moved.inv {s s' : BsonS} (h : Moved s s') (hI : Inv s) : Inv s' ∧ m s' ≤ m s := by
  obtain ⟨inp, ls, h1, h2, rfl⟩ := h
  refine ⟨⟨hI.sizes.trans h1.symm, ?_, hI.skip⟩, ?_⟩
  · show Fits s.next s.conts ls.length
    rw [h1]
    exact hI.fits
  · unfold m
    dsimp only
    omega

theorem Moved.step {s s' : BsonS} {inp : IStr} (hi : rem inp ≤ rem s.inp) (h : Moved { s with inp := inp } s') : Moved s s' := by
  obtain ⟨inp', ls, h1, h2, rfl⟩ := h
  exact ⟨inp', ls, h1, Nat.le_trans h2 hi, rfl⟩

theorem Moved.trans {s s' s'' : BsonS} (h : Moved s s') (h' : Moved s' s'') : Moved s s'' := by
  obtain ⟨inp, ls, h1, h2, rfl⟩ := h
  obtain ⟨inp', ls', h1', h2', rfl⟩ := h'
  exact ⟨inp', ls', h1'.trans h1, Nat.le_trans h2' h2, rfl⟩

theorem Moved.lft {s s' : BsonS} (h : Moved s s') (h0 : 0 < s.left.length) : 0 < s'.left.length := by
  obtain ⟨inp, ls, h1, h2, rfl⟩ := h
  exact h1.symm ▸ h0

theorem use_moved (n : Int) {s : BsonS} (h : 0 < s.left.length) : Safe (Moved s) (s.use n) :=
  use_safe h fun ls e => ⟨s.inp, ls, e, Nat.le_refl _, rfl⟩

theorem readInt_moved (n : Nat) {s : BsonS} (h : 0 < s.left.length) : Safe (fun x => Moved s x.2) (BJ.readInt j n s) := by
  unfold BJ.readInt
  refine (use_moved n h).bind fun s' h' => ?_
  obtain ⟨inp, ls, h1, h2, rfl⟩ := h'
  exact .ok ⟨_, ls, h1, Nat.le_trans (readLE_rem j n inp) h2, rfl⟩

theorem getInt_moved (k : IntKind) {s : BsonS} (h : 0 < s.left.length) : Safe (fun x => Moved s x.2) (BJ.getInt j k s) := by
  unfold BJ.getInt
  repeat' split
  · exact (readInt_moved j 4 h).bind fun x hx => .ok hx
  · exact (readInt_moved j 8 h).bind fun x hx => .ok hx
  · exact .throwStd

theorem readDouble_moved {s : BsonS} (h : 0 < s.left.length) : Safe (fun x => Moved s x.2) s.readDouble := by
  unfold BsonS.readDouble
  dsimp only
  split
  · exact .throwStd
  · next hg =>
    obtain ⟨hl, hr⟩ := read_one (i := s.inp) (n := 8) (by simpa using hg)
    refine (use_moved 8 (by exact h)).bind fun s' h' => ?_
    rw [if_neg (by omega)]
    exact .ok (h'.step (read_rem s.inp 8))

theorem getFlt_moved (f : FKind) {s : BsonS} (h : 0 < s.left.length) : Safe (fun x => Moved s x.2) (BJ.getFlt j f s) := by
  unfold BJ.getFlt
  repeat' split
  · exact (readInt_moved j 4 h).bind fun x hx => .ok hx
  · exact (readInt_moved j 8 h).bind fun x hx => .ok hx
  · exact (readDouble_moved h).bind fun x hx => .ok hx
  · exact .throwStd

theorem getBool_moved {s : BsonS} (h : 0 < s.left.length) : Safe (fun x => Moved s x.2) (BJ.getBool j s) := by
  unfold BJ.getBool
  dsimp only
  split
  · exact .throwStd
  · split
    · exact .throwStd
    · refine (use_moved 1 (by exact h)).bind fun s' h' => ?_
      have h' := h'.step (read_rem s.inp 1)
      split <;> exact .ok h'

theorem getStr_moved {s : BsonS} (h : 0 < s.left.length) : Safe (fun x => Moved s x.2) (BJ.getStr j s) := by
  unfold BJ.getStr
  dsimp only
  split
  · exact .throwStd
  · refine (use_moved 4 (by exact h)).bind fun s' h' => ?_
    have h' := h'.step (readLE_rem j 4 s.inp)
    split
    · exact .throwStd
    · split
      · exact .throwStd
      · refine (use_moved _ (by exact h'.lft h)).bind fun s'' h'' => ?_
        split
        · exact .throwStd
        · exact .ok (h'.trans (h''.step (read_rem _ _)))

theorem ignoreBytes_moved (n : Int) {s : BsonS} (h : 0 < s.left.length) : Safe (Moved s) (s.ignoreBytes n) :=
  (use_moved n (by exact h)).mono fun _ h' => h'.step (ignore_rem s.inp n)

theorem ignoreSized_moved (n : Int) {s : BsonS} (h : 0 < s.left.length) : Safe (Moved s) (BJ.ignoreSized j n s) := by
  unfold BJ.ignoreSized
  dsimp only
  split
  · exact (use_moved _ (by exact h)).mono fun _ h' => h'.step (Nat.le_trans (ignore_rem _ _) (readLE_rem j 4 s.inp))
  · exact (use_moved _ (by exact h)).mono fun _ h' => h'.step (Nat.le_trans (ignore_rem _ _) (readLE_rem j 4 s.inp))

theorem Moved.refl (s : BsonS) : Moved s s := ⟨s.inp, s.left, rfl, Nat.le_refl _, rfl⟩

theorem Inv.lft {s : BsonS} (h : Inv s) (hs : s.skip = true) : 0 < s.left.length := by
  have := h.fits
  rw [h.skip hs] at this
  exact this.2

theorem safe_ite {α : Type} {P : α → Prop} {c : Prop} [Decidable c] {r r' : Res α} (h : Safe P r) (h' : Safe P r') : Safe P (if c then r else r') := by
  split <;> assumption

theorem ignoreData_moved {s : BsonS} (h : Inv s) : Safe (Moved s) (BJ.ignoreDataValue j s) := by
  unfold BJ.ignoreDataValue
  split
  · exact .ok (.refl s)
  · next hs =>
    have h0 := h.lft (by simpa using hs)
    refine safe_ite (ignoreBytes_moved _ h0) (safe_ite (ignoreBytes_moved _ h0) (safe_ite (ignoreBytes_moved _ h0) (safe_ite (ignoreBytes_moved _ h0)
      (safe_ite (ignoreBytes_moved _ h0) (safe_ite (ignoreBytes_moved _ h0) (safe_ite (ignoreBytes_moved _ h0) (safe_ite (ignoreBytes_moved _ h0)
      (safe_ite (.ok (.refl s)) (safe_ite (ignoreSized_moved j _ h0) (safe_ite (ignoreSized_moved j _ h0) .throwStd))))))))))

theorem value_safe {α : Type} {s : BsonS} {r : Res (α × BsonS)} (h : Inv s) (ha : A .Value s) (hr : 0 < s.left.length → Safe (fun x => Moved s x.2) r) :
    Safe (fun x => Inv x.2 ∧ m x.2 < m s + w .Value) r :=
  (hr (h.lft (ha.2 rfl))).mono fun _ hx => ⟨(hx.inv h).1, Nat.lt_succ_of_le (hx.inv h).2⟩

theorem w_pos {t : Tok} (h : t ≠ .Error) : w t = 1 := by cases t <;> first | rfl | exact absurd rfl h

theorem bson_ends (st : ParseType) : Halts (BJ.ops j) true true true (fun _ => Inv) (fun _ => A) m w st where
  error := rfl
  mapStart := by decide
  arrayStart := by decide
  loose _ _ _ _ h := h
  keyTok h := by cases h
  next _ s h := next_safe j h
  getKey _ t s _ h _ ha := by
    refine .ok ⟨h, .inl ?_⟩
    have : w t = 1 := by
      rcases ha with ⟨-, rfl⟩ | ha
      · rfl
      · exact w_pos ha.1
    dsimp only
    omega
  getInt _ k _ s h ha := value_safe h ha (getInt_moved j k)
  getFlt _ f _ s h ha := value_safe h ha (getFlt_moved j f)
  getBool _ s h ha := value_safe h ha (getBool_moved j)
  getStr _ s h ha := value_safe h ha (getStr_moved j)
  null _ t s h ha _ := by
    have : w t = 1 := by
      rcases ha with ⟨-, rfl⟩ | ha
      · rfl
      · exact w_pos ha.1
    exact (ignoreData_moved j h).mono fun s' h' => ⟨(h'.inv h).1, by have := (h'.inv h).2; omega, fun _ => by have := (h'.inv h).2; omega⟩
  skip _ _ t s h ha _ := (ignoreData_moved j h).mono fun s' h' _ => ⟨(h'.inv h).1, by have := (h'.inv h).2; have := w_pos ha.1; omega⟩

theorem start_inv (c : BCont) (i : IStr) : Safe (fun x => Inv x.2) (BJ.getNextToken j (BsonS.ofStream c i)) := by
  cases c with
  | Map => exact .ok ⟨rfl, ⟨_, _, rfl, by simp, .nil⟩, fun e => by cases e⟩
  | Array => exact .ok ⟨rfl, ⟨_, _, rfl, by simp, .nil⟩, fun e => by cases e⟩
  | Value => exact .ok ⟨rfl, ⟨.doc, Nat.succ_pos _⟩, fun e => by cases e⟩

theorem import_ends {env : Env} (hT : SoundTypes env true true) (cfg : Cfg) (c : BCont) (ty : Ty) (old : Val) (i : IStr) (hS : Sound env true true ty)
    (hO : Shaped env ty old) : importValue (BJ.ops j) env cfg ty old (PI.init (BsonS.ofStream c i)) ≠ .ub := by
  suffices h : Safe (fun _ => True) (importValue (BJ.ops j) env cfg ty old (PI.init (BsonS.ofStream c i))) from h.ne_ub
  unfold importValue
  have hg : Safe (fun x => EClean (fun _ => Inv) [] x.2) ((PI.init (BsonS.ofStream c i)).getToken (BJ.ops j)) := by
    show Safe _ (do let (t, s) ← BJ.getNextToken j (BsonS.ofStream c i); return (t, (⟨s, .Error, .Error⟩ : PI BsonS)))
    exact (start_inv j c i).bind fun x hx => .ok ⟨hx, rfl, rfl⟩
  refine hg.bind ?_
  rintro ⟨k, p⟩ hp
  dsimp only at hp ⊢
  split
  · exact .throwStd
  · refine (deser_ends (cfg := cfg) (bson_ends j _) hT _ ty old _ p hS hO hp.pre (Nat.lt_succ_self _)).bind ?_
    rintro ⟨v, p⟩ ⟨h1, -, -, -⟩
    dsimp only at h1 ⊢
    refine ((h1.pre (bson_ends j cfg.strict)).getToken (bson_ends j cfg.strict)).bind ?_
    rintro ⟨k, p⟩ -
    dsimp only
    split
    · exact .throwStd
    · exact .ok trivial

end BEnds
end Thors
