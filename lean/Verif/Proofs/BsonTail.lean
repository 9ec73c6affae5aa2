import Verif.Model.BsonImporter
import Verif.Proofs.BsonStreamDoc
/-
What `extract` does behind a BSON document.
-/
namespace Thors
open Spec StrIn

/-- The characters the check for trailing data passes over. -/
def blank : Bytes := [0x20, 0x09, 0x0A, 0x0D, 0x0B, 0x0C]

theorem isSpace_blank (c : Byte) : isSpace c = true ↔ c ∈ blank := by
  simp [isSpace, blank]

theorem spaces_blank : ∀ t : Bytes, spaces t ≤ t.length ∧ (spaces t = t.length ↔ ∀ c ∈ t, c ∈ blank)
  | [] => by simp [spaces]
  | c :: t => by
    obtain ⟨h1, h2⟩ := spaces_blank t
    by_cases hc : isSpace c = true
    · have := (isSpace_blank c).1 hc
      simp only [spaces, hc, if_true, List.length_cons, Nat.add_right_cancel_iff, List.forall_mem_cons, this, true_and]
      exact ⟨by omega, h2⟩
    · have : c ∉ blank := fun h => hc ((isSpace_blank c).2 h)
      simp [spaces, hc, this]

theorem StrIn.readChar_rest {rest : Bytes} {inp : StrIn} (h : BIn rest inp) :
    (inp.readChar).2.data = inp.data ∧ ((inp.readChar).2.good = true ↔ ¬ ∀ c ∈ rest, c ∈ blank) ∧ ∀ b r, rest = b :: r → isSpace b = false → BIn r (inp.readChar).2 := by
  obtain ⟨h1, h2, -⟩ := h
  unfold StrIn.rest at h1
  obtain ⟨h3, h4⟩ := spaces_blank rest
  have hl : rest.length = inp.data.length - inp.pos := by rw [← h1]; simp
  refine ⟨rfl, ?_, ?_⟩
  · simp only [StrIn.readChar, if_pos h2, h1, decide_eq_true_eq]
    rw [← h4]
    omega
  · rintro b r rfl hb
    have hs : spaces (b :: r) = 0 := by simp [spaces, hb]
    simp at hl
    refine ⟨?_, ?_, ?_⟩
    · simp only [StrIn.readChar, if_pos h2, h1, hs, StrIn.rest, Nat.add_zero]
      rw [← List.drop_drop, h1]
      rfl
    · simp only [StrIn.readChar, if_pos h2, h1, hs, Nat.add_zero]
      omega
    · simp only [StrIn.readChar, if_pos h2, h1, hs, Nat.add_zero, decide_eq_true_eq]
      omega

theorem IStr.readChar_rest {rest : Bytes} {i : IStr} (h : Stands rest i) :
    ((i.readChar).2.fail = false ↔ ¬ ∀ c ∈ rest, c ∈ blank) ∧ ∀ b r, rest = b :: r → isSpace b = false → Stands r (i.readChar).2 := by
  obtain ⟨h1, h2, he, hf⟩ := h
  unfold IStr.rest at h1
  obtain ⟨h3, h4⟩ := spaces_blank rest
  have hl : rest.length = i.data.length - i.pos := by rw [← h1]; simp
  have hg : i.good = true := by simp [IStr.good, he, hf]
  constructor
  · rw [← h4]
    simp only [IStr.readChar, hg, h1, Bool.true_eq_false, if_false]
    by_cases hp : i.pos + spaces rest < i.data.length
    · rw [if_pos hp]
      simp only [hf, true_iff]
      omega
    · rw [if_neg hp]
      simp only [Bool.true_eq_false, false_iff, Decidable.not_not]
      omega
  · rintro b r rfl hb
    have hs : spaces (b :: r) = 0 := by simp [spaces, hb]
    simp at hl
    simp only [IStr.readChar, hg, h1, hs, Bool.true_eq_false, if_false, Nat.add_zero]
    rw [if_pos (by omega)]
    refine ⟨?_, ?_, he, hf⟩
    · simp only [IStr.rest]
      rw [← List.drop_drop, h1]
      rfl
    · dsimp only
      omega

variable {σ : Type}

/-- `extract`, after the value. -/
def afterValue (io : InOps σ) (pol : Policy) (v : Val) (s : σ) : Report Val :=
  match (trailing io pol (PI.init s)).2.getToken io.ops with
  | .ub => ⟨.ub, none⟩
  | .throw e => if (trailing io pol (PI.init s)).1 then ⟨.terminated, none⟩ else pol.handle e
  | .ok (k, p) =>
    if k ≠ Tok.DocEnd then (if (trailing io pol (PI.init s)).1 then ⟨.terminated, none⟩ else pol.handle .std)
    else if (trailing io pol (PI.init s)).1 then pol.handle .std
    else ⟨.returned (io.ok p.inner) (some v), some (io.ok p.inner)⟩

/-- `extract` of a document that a parser presents. -/
theorem extract_presents {K X : Type} (io : InOps σ) (sem : ScalarSem K X) (env : Env) (cfg : Cfg) (pol : Policy) {t : Tr K X} {Q : σ → Prop} {s s1 : σ}
    (h0 : io.ops.next s = .ok (.DocStart, s1)) (h : Presents io.ops sem t Q s1) (hsk : t.skippable sem = true) (ty : Ty) (old : Val) :
    match imp sem env cfg t ty old with
    | .ok v => ∃ s2, Q s2 ∧ extract io env cfg pol ty old (PI.init s) = afterValue io pol v s2
    | .throw e => extract io env cfg pol ty old (PI.init s) = pol.handle e
    | .ub => extract io env cfg pol ty old (PI.init s) = ⟨.ub, none⟩ := by
  have hm := deser_presents io.ops sem env cfg h ty old
  have hx : extract io env cfg pol ty old (PI.init s) = match deser io.ops env cfg ty old (PI.init s1) with
    | .ub => ⟨.ub, none⟩
    | .throw e => pol.handle e
    | .ok (v, p) =>
      match (trailing io pol p).2.getToken io.ops with
      | .ub => ⟨.ub, none⟩
      | .throw e => if (trailing io pol p).1 then ⟨.terminated, none⟩ else pol.handle e
      | .ok (k, p') =>
        if k ≠ Tok.DocEnd then (if (trailing io pol p).1 then ⟨.terminated, none⟩ else pol.handle .std)
        else if (trailing io pol p).1 then pol.handle .std
        else ⟨.returned (io.ok p'.inner) (some v), some (io.ok p'.inner)⟩ := by
    unfold extract
    rw [gets_next io.ops h0]
    simp only [Res.ok_bind, ne_eq, not_true_eq_false, if_false]
    rfl
  rw [hx]
  cases he : imp sem env cfg t ty old with
  | ok v =>
    rw [he] at hm
    obtain ⟨s2, e, hq⟩ := hm
    rw [e]
    exact ⟨s2, hq, rfl⟩
  | throw e => rw [he] at hm; rw [show deser _ _ _ _ _ _ = _ from hm]
  | ub => rw [he] at hm; rw [hm (fun _ => hsk)]

/-- What becomes of the value of a checked document: `junk` behind an array or object; a scalar. -/
def tailFate (pol : Policy) (t : BTree) (rest : Bytes) (v : Val) : Report Val :=
  if pol.validateNoTrailingData then
    if BsonP.rootKind t = .Value then (if rest.head? = some 0x00 then pol.handle .std else ⟨.terminated, none⟩)
    else if ∀ c ∈ rest, c ∈ blank then ⟨.returned true (some v), some true⟩ else pol.handle .std
  else ⟨.returned true (some v), some true⟩

theorem readEnd_not {s : BsonP} {rest : Bytes} {l : Int} {L : List Int} (hi : BIn rest s.inp) (hr : rest.head? ≠ some 0x00) (hl : s.left = l :: L) : s.readEnd = throwStd := by
  obtain ⟨h1, h2, -⟩ := hi
  unfold StrIn.rest at h1
  have hlen : rest.length = s.inp.data.length - s.inp.pos := by rw [← h1]; simp
  rw [BsonP.readEnd, StrIn.read, if_neg (by omega), h1]
  cases rest with
  | nil => simp [BsonP.use, hl, h2]
  | cons b r =>
    simp at hr hlen
    have : s.inp.pos + 1 ≤ s.inp.data.length := by omega
    simp [BsonP.use, hl, hr, this]

theorem settle_with {s s3 : BsonP} (h : s.settle = .ok s3) (inp : StrIn) : { s with inp := inp }.settle = .ok { s3 with inp := inp } := by
  unfold BsonP.settle at h ⊢
  dsimp only
  split at h
  · rename_i hs
    rw [if_pos hs]
    have : ({ s with inp := inp } : BsonP).endToken = s.endToken := rfl
    rw [this]
    cases he : s.endToken with
    | ub => rw [he] at h; cases h
    | throw e => rw [he] at h; cases h
    | ok o =>
      rw [he] at h
      cases o <;> (cases h; rfl)
  · rename_i hs
    rw [if_neg hs]
    cases h
    rfl

theorem settle_inp {s s3 : BsonP} (h : s.settle = .ok s3) : s3.inp = s.inp := by
  have := settle_with h s.inp
  rw [show ({ s with inp := s.inp } : BsonP) = s from rfl, h] at this
  injection this with e
  rw [e]

theorem afterValue_string {t : BTree} {rest : Bytes} {s : BsonP} (pol : Policy) (v : Val) (h : BsonP.DocEnds t rest s) :
    afterValue BsonP.inOps pol v s = tailFate pol t rest v := by
  by_cases hv : pol.validateNoTrailingData = true
  · have hgood : s.inp.good = true := by
      cases t with
      | scalar x =>
        obtain ⟨s3, e3, h3⟩ := h
        rw [← settle_inp e3]
        exact h3.inp.good
      | arr ts => exact h.inp.good
      | obj ms => exact h.inp.good
    have htr : trailing BsonP.inOps pol (PI.init s) = if (s.inp.readChar).2.good = false then
        (false, PI.init { s with inp := { (s.inp.readChar).2 with good := true } }) else (true, PI.init { s with inp := (s.inp.readChar).2 }) := by
      unfold trailing
      rw [if_pos ⟨hv, hgood⟩]
      rfl
    have cont : BsonP.BS [] [] [] .DocEnd rest s → afterValue BsonP.inOps pol v s = if ∀ c ∈ rest, c ∈ blank then ⟨.returned true (some v), some true⟩ else pol.handle .std := by
      rintro ⟨hi, hcs, hL, hZ, hn, hs⟩
      have next : ∀ inp : StrIn, (PI.init { s with inp := inp }).getToken BsonP.inOps.ops = .ok (.DocEnd, PI.init { s with inp := inp, next := .Error }) := by
        intro inp
        refine gets_next BsonP.ops ?_
        show BsonP.getNextToken _ = _
        rw [BsonP.next_handOut (s := { s with inp := inp }) hs (by dsimp only; rw [hn]; simp), BsonP.handOut]
        dsimp only
        rw [hn]
        simp [hcs]
      obtain ⟨-, h2, -⟩ := StrIn.readChar_rest hi
      unfold afterValue
      rw [htr]
      by_cases hb : ∀ c ∈ rest, c ∈ blank
      · have : (s.inp.readChar).2.good = false := by
          rw [← Bool.not_eq_true]
          exact fun h => h2.1 h hb
        rw [if_pos this, if_pos hb]
        simp only [next]
        rfl
      · have : ¬ (s.inp.readChar).2.good = false := by
          rw [h2.2 hb]; simp
        rw [if_neg this, if_neg hb]
        simp only [next]
        rfl
    rw [tailFate, if_pos hv]
    cases t with
    | arr ts => rw [if_neg (by simp [BsonP.rootKind])]; exact cont h
    | obj ms => rw [if_neg (by simp [BsonP.rootKind])]; exact cont h
    | scalar x =>
      rw [if_pos (by rfl : BsonP.rootKind (.scalar x) = .Value)]
      obtain ⟨s3, e3, h3⟩ := h
      have hi : BIn (0x00 :: rest) s.inp := by rw [← settle_inp e3]; exact h3.inp
      obtain ⟨-, h2, h4⟩ := StrIn.readChar_rest hi
      have h5 := h4 _ _ rfl (by decide)
      have h6 : (s.inp.readChar).2.good = true := h2.2 (fun h => absurd (h 0x00 (by simp)) (by decide))
      unfold afterValue
      rw [htr, if_neg (by rw [h6]; simp)]
      dsimp only
      have hn3 : s3.next = .DocEnd := h3.next
      have next : BsonP.ops.next { s with inp := (s.inp.readChar).2 } = ({ s3 with inp := (s.inp.readChar).2 } : BsonP).readEnd >>= fun s4 => .ok (.DocEnd, { s4 with next := .Error }) := by
        show BsonP.getNextToken _ = _
        rw [BsonP.getNextToken, settle_with e3]
        simp only [Res.ok_bind]
        rw [if_neg (by rw [hn3]; simp), BsonP.handOut]
        dsimp only
        rw [hn3]
        simp only [h3.conts, List.head?_cons, if_true]
        rfl
      by_cases hr : rest.head? = some 0x00
      · rw [if_pos hr]
        obtain ⟨r, rfl⟩ : ∃ r, rest = 0x00 :: r := by
          cases rest with
          | nil => cases hr
          | cons b r => simp at hr; exact ⟨r, by rw [hr]⟩
        obtain ⟨inp4, e4, -⟩ := BsonP.readEnd_zero (s := { s3 with inp := (s.inp.readChar).2 }) h5 h3.left
        rw [e4] at next
        simp only [Res.ok_bind] at next
        rw [show BsonP.inOps.ops = BsonP.ops from rfl, gets_next BsonP.ops next]
        rfl
      · rw [if_neg hr]
        rw [readEnd_not (s := { s3 with inp := (s.inp.readChar).2 }) h5 hr h3.left] at next
        have hth : (PI.init { s with inp := (s.inp.readChar).2 }).getToken BsonP.ops = throwStd := by
          simp [PI.getToken, PI.init, next, throwStd]
        rw [show BsonP.inOps.ops = BsonP.ops from rfl, hth]
        rfl
  · obtain ⟨s', e, hi⟩ := h.next
    have htr : trailing BsonP.inOps pol (PI.init s) = (false, PI.init s) := by
      unfold trailing
      rw [if_neg (fun h => hv h.1)]
    unfold afterValue
    rw [htr, show BsonP.inOps.ops = BsonP.ops from rfl, gets_next BsonP.ops e]
    simp only [ne_eq, not_true_eq_false, if_false, tailFate, hv]
    have : BsonP.inOps.ok (PI.init s').inner = true := hi.good
    rw [this]
    rfl

/-! ### streams -/

/-- The same for a parser on a stream. -/
def SDocEnds : BTree → Bytes → BsonS → Prop
  | .scalar _, rest, s => ∃ s3, s.settle = .ok s3 ∧ s3.next = .DocEnd ∧ s3.conts = [.Value, .Value] ∧ s3.left = [1] ∧ Stands (0x00 :: rest) s.inp
  | _, rest, s => s.conts = [] ∧ s.next = .DocEnd ∧ s.skip = false ∧ Stands rest s.inp

theorem ssettle_with {s s3 : BsonS} (h : s.settle = .ok s3) (inp : IStr) : { s with inp := inp }.settle = .ok { s3 with inp := inp } := by
  unfold BsonS.settle at h ⊢
  dsimp only
  split at h
  · rename_i hs
    rw [if_pos hs]
    have : ({ s with inp := inp } : BsonS).endToken = s.endToken := rfl
    rw [this]
    cases he : s.endToken with
    | ub => rw [he] at h; cases h
    | throw e => rw [he] at h; cases h
    | ok o =>
      rw [he] at h
      cases o <;> (cases h; rfl)
  · rename_i hs
    rw [if_neg hs]
    cases h
    rfl

theorem settle_onto {s s3 : BsonP} (h : s.settle = .ok s3) (i : IStr) : (s.onto i).settle = .ok (s3.onto i) := by
  unfold BsonP.settle at h
  unfold BsonS.settle
  split at h
  · rename_i hs
    rw [if_pos (by exact hs)]
    have : (s.onto i).endToken = s.endToken := rfl
    rw [this]
    cases he : s.endToken with
    | ub => rw [he] at h; cases h
    | throw e => rw [he] at h; cases h
    | ok o =>
      rw [he] at h
      cases o <;> (cases h; rfl)
  · rename_i hs
    rw [if_neg (by exact hs)]
    cases h
    rfl

theorem docEnds_onto {t : BTree} {rest : Bytes} {w : Prop} {pre : Bytes} {s' : BsonS} (h : Onto w pre (BsonP.DocEnds t rest) s') : SDocEnds t rest s' := by
  obtain ⟨s, h, hl⟩ := h
  have stands : ∀ {r : Bytes}, BIn r s.inp → Stands r s'.inp := by
    intro r hi
    refine ⟨?_, ?_, hl.inp.eof, hl.inp.fail⟩
    · rw [IStr.rest, hl.inp.rest]
      exact hi.rest
    · have := hl.inp.le
      rw [hl.inp.data, hl.inp.pos, List.length_append]
      omega
  have cont : BsonP.BS [] [] [] .DocEnd rest s → s'.conts = [] ∧ s'.next = .DocEnd ∧ s'.skip = false ∧ Stands rest s'.inp := by
    rintro ⟨hi, hcs, -, -, hn, hs⟩
    refine ⟨?_, ?_, ?_, stands hi⟩ <;> rw [hl.eq] <;> assumption
  cases t with
  | arr ts => exact cont h
  | obj ms => exact cont h
  | scalar x =>
    obtain ⟨s3, e3, h3⟩ := h
    refine ⟨s3.onto s'.inp, ?_, h3.next, h3.conts, h3.left, stands ?_⟩
    · conv => lhs; rw [hl.eq]
      exact settle_onto e3 _
    · rw [← settle_inp e3]
      exact h3.inp

theorem bson_stream_presents_to (t : BTree) (h : Storable32 t) (rest : Bytes) {i : IStr} (hi : Stands (bdoc t ++ rest) i) :
    ∃ s1, BsonS.ops.next (BsonS.ofStream (BsonP.rootKind t) i) = .ok (.DocStart, s1) ∧ Presents BsonS.ops bsem t (SDocEnds t rest) s1 := by
  obtain ⟨p1, e1, p2, e2, h2⟩ := BsonP.bdoc_presents_to BsonP.skipper_checked t h rest
  have hl := live_start False (i.data.take i.pos) (bdoc t ++ rest) (BsonP.rootKind t) (fun h => h.elim) i.seekable
  rw [← hi.eq] at hl
  obtain ⟨s1, f1, hl1, -⟩ := hl.token e1
  obtain ⟨s2, f2, hl2, hk⟩ := hl1.token e2
  have hq : NotBLost (BsonP.DocEnds t rest) := by
    intro s hd hlost
    obtain ⟨s', e, -⟩ := hd.next
    exact (hlost.next _ e).2.2 rfl
  exact ⟨s1, f1, s2, f2, after_mono BsonS.ops bsem t (fun _ => docEnds_onto) (after_onto t hq hk hl2 h2)⟩

theorem sreadEnd_at {s : BsonS} {rest : Bytes} {l : Int} {L : List Int} (hi : Stands rest s.inp) (hl : s.left = l :: L) :
    (rest.head? ≠ some 0x00 → s.readEnd = throwStd) ∧ (rest.head? = some 0x00 → ∃ s', s.readEnd = .ok s' ∧ s'.inp.fail = false) := by
  obtain ⟨h1, h2, he, hf⟩ := hi
  unfold IStr.rest at h1
  have hlen : rest.length = s.inp.data.length - s.inp.pos := by rw [← h1]; simp
  have hg : s.inp.good = true := by simp [IStr.good, he, hf]
  cases rest with
  | nil => simp [BsonS.readEnd, IStr.read, hg, h1]
  | cons b r =>
    constructor
    · intro hr
      simp at hr
      simp [BsonS.readEnd, IStr.read, hg, h1, BsonS.use, hl, hr]
    · intro hr
      simp at hr
      exact ⟨{ s with inp := { s.inp with pos := s.inp.pos + 1 }, left := (l - 1) :: L }, by simp [BsonS.readEnd, IStr.read, hg, h1, BsonS.use, hl, hr], hf⟩

theorem afterValue_stream {t : BTree} {rest : Bytes} {s : BsonS} (pol : Policy) (v : Val) (h : SDocEnds t rest s) :
    afterValue BsonS.inOps pol v s = tailFate pol t rest v := by
  have next0 : (s.conts = [] ∧ s.next = .DocEnd ∧ s.skip = false) → ∀ inp : IStr, BsonS.ops.next { s with inp := inp } = .ok (.DocEnd, { s with inp := inp, next := .Error }) := by
    rintro ⟨hcs, hn, hs⟩ inp
    show BsonS.getNextToken _ = _
    rw [BsonS.getNextToken, BsonS.settle, if_neg (by simp [hs])]
    simp only [Res.ok_bind]
    rw [if_neg (by rw [hn]; simp), BsonS.handOut]
    dsimp only
    rw [hn]
    simp [hcs]
  have next1 : ∀ {s3 : BsonS}, s.settle = .ok s3 → s3.next = .DocEnd → s3.conts = [.Value, .Value] → ∀ inp : IStr,
      BsonS.ops.next { s with inp := inp } = ({ s3 with inp := inp } : BsonS).readEnd >>= fun s4 => .ok (.DocEnd, { s4 with next := .Error }) := by
    intro s3 e3 hn3 hc3 inp
    show BsonS.getNextToken _ = _
    rw [BsonS.getNextToken, ssettle_with e3]
    simp only [Res.ok_bind]
    rw [if_neg (by rw [hn3]; simp), BsonS.handOut]
    dsimp only
    rw [hn3]
    simp only [hc3, List.head?_cons, if_true]
    rfl
  by_cases hv : pol.validateNoTrailingData = true
  · have hgood : s.inp.fail = false := by
      cases t with
      | scalar x => obtain ⟨s3, -, -, -, -, hi⟩ := h; exact hi.fail
      | arr ts => exact h.2.2.2.fail
      | obj ms => exact h.2.2.2.fail
    have htr : trailing BsonS.inOps pol (PI.init s) = if (s.inp.readChar).2.fail = true then
        (false, PI.init { s with inp := (s.inp.readChar).2.clear }) else (true, PI.init { s with inp := (s.inp.readChar).2 }) := by
      unfold trailing
      rw [if_pos ⟨hv, by show (!s.inp.fail) = true; rw [hgood]; rfl⟩]
      show (if (!(s.inp.readChar).2.fail) = false then _ else _) = _
      cases (s.inp.readChar).2.fail <;> rfl
    have cont : (s.conts = [] ∧ s.next = .DocEnd ∧ s.skip = false ∧ Stands rest s.inp) →
        afterValue BsonS.inOps pol v s = if ∀ c ∈ rest, c ∈ blank then ⟨.returned true (some v), some true⟩ else pol.handle .std := by
      rintro ⟨hcs, hn, hs, hi⟩
      have next : ∀ inp : IStr, (PI.init { s with inp := inp }).getToken BsonS.inOps.ops = .ok (.DocEnd, PI.init { s with inp := inp, next := .Error }) :=
        fun inp => gets_next BsonS.ops (next0 ⟨hcs, hn, hs⟩ inp)
      obtain ⟨h2, -⟩ := IStr.readChar_rest hi
      unfold afterValue
      rw [htr]
      by_cases hb : ∀ c ∈ rest, c ∈ blank
      · have : (s.inp.readChar).2.fail = true := by
          rw [← Bool.not_eq_false]
          exact fun h => h2.1 h hb
        rw [if_pos this, if_pos hb]
        simp only [next]
        rfl
      · have : ¬ (s.inp.readChar).2.fail = true := by
          rw [h2.2 hb]; simp
        rw [if_neg this, if_neg hb]
        simp only [next]
        rfl
    rw [tailFate, if_pos hv]
    cases t with
    | arr ts => rw [if_neg (by simp [BsonP.rootKind])]; exact cont h
    | obj ms => rw [if_neg (by simp [BsonP.rootKind])]; exact cont h
    | scalar x =>
      rw [if_pos (by rfl : BsonP.rootKind (.scalar x) = .Value)]
      obtain ⟨s3, e3, hn3, hc3, hl3, hi⟩ := h
      obtain ⟨h2, h4⟩ := IStr.readChar_rest hi
      have h5 := h4 _ _ rfl (by decide)
      unfold afterValue
      rw [htr, if_neg (by rw [h5.fail]; simp)]
      dsimp only
      have next := next1 e3 hn3 hc3 (s.inp.readChar).2
      obtain ⟨r1, r2⟩ := sreadEnd_at (s := { s3 with inp := (s.inp.readChar).2 }) h5 hl3
      by_cases hr : rest.head? = some 0x00
      · rw [if_pos hr]
        obtain ⟨s4, e4, -⟩ := r2 hr
        rw [e4] at next
        simp only [Res.ok_bind] at next
        rw [show BsonS.inOps.ops = BsonS.ops from rfl, gets_next BsonS.ops next]
        rfl
      · rw [if_neg hr]
        rw [r1 hr] at next
        have hth : (PI.init { s with inp := (s.inp.readChar).2 }).getToken BsonS.ops = throwStd := by
          simp [PI.getToken, PI.init, next, throwStd]
        rw [show BsonS.inOps.ops = BsonS.ops from rfl, hth]
        rfl
  · have htr : trailing BsonS.inOps pol (PI.init s) = (false, PI.init s) := by
      unfold trailing
      rw [if_neg (fun h => hv h.1)]
    obtain ⟨s', e, hf⟩ : ∃ s', BsonS.ops.next s = .ok (.DocEnd, s') ∧ s'.inp.fail = false := by
      cases t with
      | arr ts => exact ⟨_, next0 ⟨h.1, h.2.1, h.2.2.1⟩ s.inp, h.2.2.2.fail⟩
      | obj ms => exact ⟨_, next0 ⟨h.1, h.2.1, h.2.2.1⟩ s.inp, h.2.2.2.fail⟩
      | scalar x =>
        obtain ⟨s3, e3, hn3, hc3, hl3, hi⟩ := h
        obtain ⟨-, r2⟩ := sreadEnd_at (s := { s3 with inp := s.inp }) hi hl3
        obtain ⟨s4, e4, hf⟩ := r2 rfl
        have := next1 e3 hn3 hc3 s.inp
        rw [e4] at this
        exact ⟨_, this, hf⟩
    unfold afterValue
    rw [htr, show BsonS.inOps.ops = BsonS.ops from rfl, gets_next BsonS.ops e]
    simp only [ne_eq, not_true_eq_false, if_false, tailFate, hv]
    have : BsonS.inOps.ok (PI.init s').inner = true := by
      show (!s'.inp.fail) = true
      rw [hf]; rfl
    rw [this]
    rfl

/-- The outcome of a checked or unchecked import of a document: from a string, … -/
theorem bsonExtract_doc (env : Env) (cfg : Cfg) (pol : Policy) (t : BTree) (h : Storable32 t) (rest : Bytes) (ty : Ty) (hb : bsonBase env ty = BsonP.rootKind t) (old : Val) :
    bsonExtract env cfg pol ty old (bdoc t ++ rest) = match imp bsem env cfg t ty old with
      | .ok v => tailFate pol t rest v
      | .throw e => pol.handle e
      | .ub => ⟨.ub, none⟩ := by
  obtain ⟨s1, h1, h2⟩ := BsonP.bdoc_presents_to BsonP.skipper_ignore t h rest
  have := extract_presents BsonP.inOps bsem env cfg pol (s := BsonP.ofBytes (BsonP.rootKind t) (bdoc t ++ rest)) h1 h2 (bskippable t) ty old
  unfold bsonExtract
  rw [hb]
  cases he : imp bsem env cfg t ty old with
  | ok v => rw [he] at this; obtain ⟨s2, hq, e⟩ := this; rw [e]; exact afterValue_string pol v hq
  | throw e => rw [he] at this; exact this
  | ub => rw [he] at this; exact this

/-- … and from a stream. -/
theorem bsonStreamExtract_doc (env : Env) (cfg : Cfg) (pol : Policy) (t : BTree) (h : Storable32 t) (rest : Bytes) (ty : Ty) (hb : bsonBase env ty = BsonP.rootKind t) (old : Val)
    {i : IStr} (hi : Stands (bdoc t ++ rest) i) :
    bsonStreamExtract env cfg pol ty old i = match imp bsem env cfg t ty old with
      | .ok v => tailFate pol t rest v
      | .throw e => pol.handle e
      | .ub => ⟨.ub, none⟩ := by
  obtain ⟨s1, h1, h2⟩ := bson_stream_presents_to t h rest hi
  have := extract_presents BsonS.inOps bsem env cfg pol (s := BsonS.ofStream (BsonP.rootKind t) i) h1 h2 (bskippable t) ty old
  unfold bsonStreamExtract
  rw [hb]
  cases he : imp bsem env cfg t ty old with
  | ok v => rw [he] at this; obtain ⟨s2, hq, e⟩ := this; rw [e]; exact afterValue_stream pol v hq
  | throw e => rw [he] at this; exact this
  | ub => rw [he] at this; exact this

end Thors
