import Verif.Proofs.Typed
import Verif.Spec.JsonEnds
import Verif.Proofs.BsonStream
import Verif.Proofs.BsonPresents
import Verif.Model.JsonStream
import Verif.Proofs.YamlPresents
import Verif.Proofs.FloatValue
import Verif.Proofs.FloatCast
import Verif.Props.Bson
/-
The parsers hand out numbers of the type that was asked for.
-/
namespace Thors
open Thors.Spec StrIn

theorem std_prec {f : FKind} (h : f ∈ [f32, f64, f80]) : 0 < f.prec := by
  simp only [List.mem_cons, List.not_mem_nil, or_false] at h
  rcases h with rfl | rfl | rfl <;> decide

theorem toFltInf_value {f : FKind} (hp : 0 < f.prec) (x : Decimal) : IsFlt f (x.toFltInf f) := by
  unfold Decimal.toFltInf
  dsimp only
  split
  · trivial
  · exact ⟨nearest_canon f hp (den_pos x), by omega⟩

theorem scanSpecial_value {f : FKind} {neg : Bool} {bs : Bytes} {r : Nat × Flt} (h : scanSpecial neg bs = some r) : IsFlt f r.2 := by
  unfold scanSpecial at h
  repeat' split at h
  all_goals first | (cases h; trivial) | cases h

/-! ### from_chars -/

theorem fromChars_range {k : IntKind} {bs : Bytes} {n : Nat} {i : Int} (h : fromChars k bs = .value n i) : InRange k i := by
  rw [← fits_iff]
  unfold fromChars at h
  cases bs with
  | nil => cases h
  | cons c cs =>
    dsimp only at h
    repeat' split at h
    all_goals first | (cases h; assumption) | cases h

theorem readInt_range {k : IntKind} {s : StrIn} {b : Bool} {v : Option Int} {s' : StrIn} (h : s.readInt k = .ok ((b, v), s')) : ∀ i, v = some i → InRange k i := by
  unfold StrIn.readInt at h
  split at h
  · cases h
  · split at h
    · cases h; intro i hi; cases hi
    · cases h; intro i hi; cases hi
    · next e => cases h; intro i hi; cases hi; exact fromChars_range e

theorem readIntValue_range {k : IntKind} {s : StrIn} {b : Bool} {v : Option Int} {s' : StrIn} (h : readIntValue s k = .ok ((b, v), s')) : ∀ i, v = some i → InRange k i := by
  unfold readIntValue at h
  obtain ⟨s1, -, h⟩ := Res.bind_ok h
  obtain ⟨⟨⟨b1, v1⟩, s2⟩, h1, h⟩ := Res.bind_ok h
  cases h
  exact readInt_range h1

theorem fromCharsU_value {f : FKind} (hp : 0 < f.prec) {neg : Bool} {l : Nat} {bs : Bytes} {n : Nat} {x : Flt} (h : fromCharsU f neg l bs = .value n x) : IsFlt f x := by
  unfold fromCharsU at h
  split at h
  · split at h
    · next e => cases h; exact toFlt_value hp e
    · cases h
  · split at h
    · next e => cases h; exact scanSpecial_value e
    · cases h

theorem fromCharsF_value {f : FKind} (hp : 0 < f.prec) {bs : Bytes} {n : Nat} {x : Flt} (h : fromCharsF f bs = .value n x) : IsFlt f x := by
  unfold fromCharsF at h
  split at h
  · split at h
    · exact fromCharsU_value hp h
    · exact fromCharsU_value hp h
  · cases h

theorem readFltValue_value {f : FKind} (hp : 0 < f.prec) {s : StrIn} {b : Bool} {v : Option Flt} {s' : StrIn} (h : readFltValue s f = .ok ((b, v), s')) :
    ∀ x, v = some x → IsFlt f x := by
  unfold readFltValue at h
  obtain ⟨s1, -, h⟩ := Res.bind_ok h
  unfold StrIn.readFlt at h
  split at h
  · cases h
  · split at h
    · cases h; intro i hi; cases hi
    · cases h; intro i hi; cases hi
    · next e => cases h; intro i hi; cases hi; exact fromCharsF_value hp e

/-! ### JSON -/

/-- What is found in the variables that were not written is of their type. -/
def _root_.Thors.Spec.Indet.Ranged (j : Indet) : Prop :=
  (∀ k s, 0 < k.bits → InRange k (j.int k s)) ∧ ∀ f s, f ∈ [f32, f64, f80] → IsFlt f (j.flt f s)

theorem json_ranged_indet (j : Indet) (hj : j.Ranged) : Ranged (opsJ j) where
  int k s hk := by
    intro x h
    change getIntJ j k s = .ok x at h
    unfold getIntJ at h
    obtain ⟨⟨⟨b, v⟩, s1⟩, h1, h⟩ := Res.bind_ok h
    dsimp only at h
    split at h
    · cases h
    · cases h
      dsimp only
      cases v with
      | none => exact hj.1 k s hk
      | some i => exact readIntValue_range h1 i rfl
  flt f s hf := by
    intro x h
    change getFltJ j f s = .ok x at h
    unfold getFltJ at h
    obtain ⟨⟨⟨b, v⟩, s1⟩, h1, h⟩ := Res.bind_ok h
    dsimp only at h
    split at h
    · cases h
    · cases h
      dsimp only
      cases v with
      | none => exact hj.2 f s hf
      | some i => exact readFltValue_value (std_prec hf) h1 i rfl

theorem json_ranged : Ranged JsonP.ops where
  int k s hk := by
    intro x h
    change JsonP.getInt k s = .ok x at h
    unfold JsonP.getInt Lexer.scanInt at h
    obtain ⟨⟨i, l⟩, h1, h⟩ := Res.bind_ok h
    cases h
    obtain ⟨⟨⟨b, v⟩, s1⟩, h2, h⟩ := Res.bind_ok h1
    dsimp only at h
    split at h
    · cases h
    · split at h
      · cases h; exact readIntValue_range h2 _ rfl
      · cases h
  flt f s hf := by
    intro x h
    change JsonP.getFlt f s = .ok x at h
    unfold JsonP.getFlt Lexer.scanFlt at h
    obtain ⟨⟨i, l⟩, h1, h⟩ := Res.bind_ok h
    cases h
    obtain ⟨⟨⟨b, v⟩, s1⟩, h2, h⟩ := Res.bind_ok h1
    dsimp only at h
    split at h
    · cases h
    · split at h
      · cases h; exact readFltValue_value (std_prec hf) h2 _ rfl
      · cases h

/-! ### streams -/

theorem numGet_lt (bits : Nat) (bs : Bytes) : (IStr.numGet bits bs).value < 2 ^ bits := by
  have hp : 0 < 2 ^ bits := Nat.two_pow_pos bits
  unfold IStr.numGet
  dsimp only
  generalize digitPrefix _ = ds
  split
  · exact hp
  · split
    · omega
    · split
      · exact Nat.mod_lt _ hp
      · omega

theorem wrapSigned_range {bits : Nat} (hb : 0 < bits) (i : Int) : -(2 ^ (bits - 1)) ≤ IStr.wrapSigned bits i ∧ IStr.wrapSigned bits i < 2 ^ (bits - 1) := by
  have hp : (0 : Int) < 2 ^ bits := Int.pow_pos (by decide)
  have e : (2 : Int) ^ bits = 2 * 2 ^ (bits - 1) := by rw [show bits = (bits - 1) + 1 by omega, Int.pow_succ, Int.mul_comm, Nat.add_sub_cancel]
  have h1 := Int.emod_nonneg i (Int.ne_of_gt hp)
  have h2 := Int.emod_lt_of_pos i hp
  unfold IStr.wrapSigned
  dsimp only
  generalize i % 2 ^ bits = u at h1 h2 ⊢
  generalize (2 : Int) ^ (bits - 1) = q at e ⊢
  split <;> omega

theorem stream_readInt_range {k : IntKind} (hk : 0 < k.bits) (i : IStr) : InRange k (i.readInt k).1.2 := by
  unfold InRange IStr.readInt
  cases k.signed with
  | true =>
    simp only [if_true]
    exact wrapSigned_range hk _
  | false =>
    simp only [Bool.false_eq_true, if_false]
    unfold IStr.readUnsigned
    have := numGet_lt k.bits (i.tellg.2.data.drop i.tellg.2.pos)
    dsimp only
    refine ⟨Int.natCast_nonneg _, ?_⟩
    have h2 : ((2 ^ k.bits : Nat) : Int) = 2 ^ k.bits := by simp
    rw [← h2]
    exact Int.ofNat_lt.2 this

theorem zero_value (f : FKind) (neg : Bool) : IsFlt f (.fin neg 0 0) := ⟨⟨Nat.two_pow_pos _, .inl rfl⟩, Nat.zero_le _⟩

theorem maxFlt_value {f : FKind} (hp : 0 < f.prec) (neg : Bool) : IsFlt f (maxFlt f neg) := by
  have := Nat.two_pow_pos f.prec
  have h2 := two_pow_pred hp
  have h3 := Nat.two_pow_pos (f.prec - 1)
  exact ⟨⟨by omega, .inr (by omega)⟩, Nat.le_refl _⟩

theorem numGetFlt_value {f : FKind} (hp : 0 < f.prec) (bs : Bytes) : IsFlt f (IStr.numGetFlt f bs).2 := by
  unfold IStr.numGetFlt
  dsimp only
  generalize IStr.extractFlt _ _ _ _ = r
  split
  · split
    · next len n k _ _ =>
      have := toFltInf_value hp ⟨decide (bs.head? = some 0x2D), n, k⟩
      generalize Decimal.toFltInf f _ = x at this ⊢
      cases x with
      | inf s => exact maxFlt_value hp s
      | fin s m E => exact this
      | nan s => trivial
    · exact zero_value f _
  · exact zero_value f _

theorem stream_ranged : Ranged JsonS.ops where
  int k s hk := by
    intro x h
    change (do let (v, l) ← s.lex.scanInt k; return (v, { s with lex := l })) = Res.ok x at h
    obtain ⟨⟨i, l⟩, h1, h⟩ := Res.bind_ok h
    cases h
    unfold LexerS.scanInt IStr.readIntValue at h1
    obtain ⟨⟨⟨b, v⟩, s1⟩, h2, h⟩ := Res.bind_ok h1
    obtain ⟨i1, -, h2⟩ := Res.bind_ok h2
    dsimp only at h
    split at h
    · cases h
    · cases h
      have := stream_readInt_range hk i1
      cases h2
      exact this
  flt f s hf := by
    intro x h
    change (do let (v, l) ← s.lex.scanFlt f; return (v, { s with lex := l })) = Res.ok x at h
    obtain ⟨⟨i, l⟩, h1, h⟩ := Res.bind_ok h
    cases h
    unfold LexerS.scanFlt IStr.readFltValue at h1
    obtain ⟨⟨⟨b, v⟩, s1⟩, h2, h⟩ := Res.bind_ok h1
    obtain ⟨i1, -, h2⟩ := Res.bind_ok h2
    dsimp only at h
    split at h
    · cases h
    · cases h
      cases h2
      exact numGetFlt_value (std_prec hf) _

/-! ### BSON -/

theorem castTo_range {k : IntKind} (hk : 0 < k.bits) (v : Int) : InRange k (castTo k v) := (Props.castTo_in k hk v).1

theorem leInt_abs {bs : Bytes} {n : Nat} (h : bs.length = n) (hn : n ≤ 8) : (leInt bs).natAbs ≤ 2 ^ 64 := by
  have h1 := BsonP.leNat_below bs
  have h2 : 2 ^ (8 * bs.length) ≤ 2 ^ 64 := Nat.pow_le_pow_right (by omega) (by omega)
  have h3 : ((2 ^ (8 * bs.length) : Nat) : Int) = 2 ^ (8 * bs.length) := by simp
  unfold leInt
  rw [← h3]
  generalize 2 ^ (8 * bs.length) = q at h1 h2 ⊢
  split <;> omega

theorem intFlt_value {f : FKind} (hf : f ∈ [f32, f64, f80]) {v : Int} (hv : v.natAbs ≤ 2 ^ 64) : IsFlt f (intFlt f v) := by
  have hp := std_prec hf
  have hE : (nearest f (v.natAbs * 2 ^ f.q) 1).2 ≤ f.emax := by
    have hlog : nearestE f (v.natAbs * 2 ^ f.q) 1 ≤ 65 + f.q - f.prec := by
      unfold nearestE
      rw [Nat.div_one]
      have : Nat.log2 (v.natAbs * 2 ^ f.q) ≤ 64 + f.q := by
        rcases Nat.eq_zero_or_pos (v.natAbs * 2 ^ f.q) with h0 | h0
        · rw [h0]; have : Nat.log2 0 = 0 := by decide
          omega
        · have := Nat.log2_self_le (by omega : v.natAbs * 2 ^ f.q ≠ 0)
          have h2 : v.natAbs * 2 ^ f.q ≤ 2 ^ (64 + f.q) := by rw [Nat.pow_add]; exact Nat.mul_le_mul_right _ hv
          exact (Nat.pow_le_pow_iff_right (by omega : 1 < 2)).1 (Nat.le_trans this h2)
      omega
    have : 66 + f.q - f.prec ≤ f.emax ∧ f.prec ≤ f.q := by
      simp only [List.mem_cons, List.not_mem_nil, or_false] at hf
      rcases hf with rfl | rfl | rfl <;> decide
    rw [nearest_eq]
    split
    · show nearestE _ _ _ + 1 ≤ _; omega
    · show nearestE _ _ _ ≤ _; omega
  exact ⟨nearest_canon f hp (by omega), hE⟩

theorem readLE_abs {n : Nat} (hn : n ≤ 8) {s : StrIn} {v : Int} {s' : StrIn} (h : readLE n s = .ok (v, s')) : v.natAbs ≤ 2 ^ 64 := by
  unfold readLE at h
  obtain ⟨⟨got, b, s1⟩, h1, h⟩ := Res.bind_ok h
  dsimp only at h
  split at h
  · cases h
  · cases h
    unfold StrIn.read at h1
    split at h1
    · cases h1
    · cases h1
      exact leInt_abs rfl (Nat.le_trans (List.length_take_le _ _) hn)

theorem bson_readInt_abs {n : Nat} (hn : n ≤ 8) {s : BsonP} {v : Int} {s' : BsonP} (h : s.readInt n = .ok (v, s')) : v.natAbs ≤ 2 ^ 64 := by
  unfold BsonP.readInt at h
  obtain ⟨s1, -, h⟩ := Res.bind_ok h
  obtain ⟨⟨w, s2⟩, h2, h⟩ := Res.bind_ok h
  cases h
  exact readLE_abs hn h2

theorem bson_ranged : Ranged BsonP.ops where
  int k s hk := by
    intro x h
    change BsonP.getInt k s = .ok x at h
    unfold BsonP.getInt at h
    split at h
    · obtain ⟨⟨v, s1⟩, -, h⟩ := Res.bind_ok h
      cases h
      exact castTo_range hk v
    · split at h
      · obtain ⟨⟨v, s1⟩, -, h⟩ := Res.bind_ok h
        cases h
        exact castTo_range hk v
      · cases h
  flt f s hf := by
    intro x h
    change BsonP.getFlt f s = .ok x at h
    unfold BsonP.getFlt at h
    split at h
    · obtain ⟨⟨v, s1⟩, h1, h⟩ := Res.bind_ok h
      cases h
      exact intFlt_value hf (bson_readInt_abs (by omega) h1)
    · split at h
      · obtain ⟨⟨v, s1⟩, h1, h⟩ := Res.bind_ok h
        cases h
        exact intFlt_value hf (bson_readInt_abs (by omega) h1)
      · split at h
        · obtain ⟨⟨v, s1⟩, h1, h⟩ := Res.bind_ok h
          cases h
          exact castFlt_value (f := f64) (std_prec hf) v
        · cases h

theorem bsonS_readInt_abs {n : Nat} (hn : n ≤ 8) {s : BsonS} {v : Int} {s' : BsonS} (h : s.readInt n = .ok (v, s')) : v.natAbs ≤ 2 ^ 64 := by
  unfold BsonS.readInt at h
  obtain ⟨s1, -, h⟩ := Res.bind_ok h
  obtain ⟨⟨w, s2⟩, h2, h⟩ := Res.bind_ok h
  cases h
  unfold IStr.readLE at h2
  dsimp only at h2
  split at h2
  · cases h2
  · cases h2
    refine leInt_abs rfl (Nat.le_trans ?_ hn)
    unfold IStr.read
    dsimp only
    split
    · exact Nat.zero_le _
    · split
      · exact List.length_take_le _ _
      · exact List.length_take_le _ _

theorem bsonS_ranged : Ranged BsonS.ops where
  int k s hk := by
    intro x h
    change BsonS.getInt k s = .ok x at h
    unfold BsonS.getInt at h
    split at h
    · obtain ⟨⟨v, s1⟩, -, h⟩ := Res.bind_ok h
      cases h
      exact castTo_range hk v
    · split at h
      · obtain ⟨⟨v, s1⟩, -, h⟩ := Res.bind_ok h
        cases h
        exact castTo_range hk v
      · cases h
  flt f s hf := by
    intro x h
    change BsonS.getFlt f s = .ok x at h
    unfold BsonS.getFlt at h
    split at h
    · obtain ⟨⟨v, s1⟩, h1, h⟩ := Res.bind_ok h
      cases h
      exact intFlt_value hf (bsonS_readInt_abs (by omega) h1)
    · split at h
      · obtain ⟨⟨v, s1⟩, h1, h⟩ := Res.bind_ok h
        cases h
        exact intFlt_value hf (bsonS_readInt_abs (by omega) h1)
      · split at h
        · obtain ⟨⟨v, s1⟩, h1, h⟩ := Res.bind_ok h
          cases h
          exact castFlt_value (f := f64) (std_prec hf) v
        · cases h

/-! ### YAML -/

theorem scanUnsigned_value {f : FKind} (hp : 0 < f.prec) {neg : Bool} {v : Bytes} {r : Nat × Flt} (h : YamlP.scanUnsigned f neg v = some r) : IsFlt f r.2 := by
  unfold YamlP.scanUnsigned at h
  split at h
  · cases h; exact toFltInf_value hp _
  · split at h
    · cases h; exact toFltInf_value hp _
    · split at h
      · cases h; trivial
      · exact scanSpecial_value h

theorem yaml_ranged : Ranged YamlP.ops where
  int k s hk := by
    intro x h
    change YamlP.getInt k s = .ok x at h
    unfold YamlP.getInt at h
    obtain ⟨⟨t, p⟩, -, h⟩ := Res.bind_ok h
    obtain ⟨i, h1, h⟩ := Res.bind_ok h
    cases h
    unfold YamlP.scanText at h1
    split at h1
    · split at h1
      · cases h1; exact castTo_range hk _
      · cases h1
    · split at h1
      · cases h1
      · cases h1; exact castTo_range hk _
  flt f s hf := by
    intro x h
    change YamlP.getFlt f s = .ok x at h
    unfold YamlP.getFlt at h
    obtain ⟨⟨t, p⟩, -, h⟩ := Res.bind_ok h
    obtain ⟨i, h1, h⟩ := Res.bind_ok h
    cases h
    unfold YamlP.scanTextFlt at h1
    dsimp only at h1
    generalize hv : (if decide ((t.dropWhile YamlP.isSpaceC).head? = some 0x2D) = true ∨ (t.dropWhile YamlP.isSpaceC).head? = some 0x2B then (t.dropWhile YamlP.isSpaceC).drop 1 else t.dropWhile YamlP.isSpaceC : Bytes) = v at h1
    split at h1
    · next e =>
      split at h1
      · cases h1
      · cases h1; exact scanUnsigned_value (std_prec hf) e
    · split at h1
      · cases h1; exact zero_value f _
      · cases h1

end Thors
