import Verif.Proofs.JsonEnds
import Verif.Proofs.Lower
/-
From the deserialiser to `extract` on JSON text.
-/
namespace Thors
open Spec StrIn

namespace JEnds

theorem fresh_I (t : Bytes) (conv : Bool) : I ⟨(JsonP.ofBytes t conv).lex, ⟨.Done, .Init, [], true⟩⟩ where
  started := rfl
  trace := ⟨_, _, Trace.next (JsonP.ofBytes t conv).lex .start rfl⟩
  sane := fun _ => rfl
  null := fun h => by cases h
  init := fun _ => rfl

/-- The token behind the value can be asked for whatever the check for trailing data did to the input. -/
theorem last_token (o : POps JsonP) (ho : o.next = JsonP.getNextToken) {P : Pos} {p : PI JsonP} (h : ELoose true (fun _ => I) P p) (lex : Lexer) :
    PI.getToken o { p with inner := { p.inner with lex := lex } } ≠ .ub := by
  unfold PI.getToken
  rw [if_neg (by simp [h.pb2])]
  split
  · simp
  · dsimp only
    obtain ⟨xs, ts, ht⟩ := h.inner.trace
    obtain ⟨t, p', e⟩ := Props.C13_no_underflow _ xs ts ht lex
    rw [ho, show ({ p.inner with lex := lex } : JsonP) = ⟨lex, p.inner.ctl⟩ from rfl, e]
    simp

theorem trailing_lex (io : InOps JsonP) (h1 : io.clear = JsonP.inOps.clear) (h2 : io.readChar = JsonP.inOps.readChar) (pol : Policy) (p : PI JsonP) :
    ∃ lex, (trailing io pol p).2 = { p with inner := { p.inner with lex := lex } } := by
  unfold trailing
  rw [h1, h2]
  split
  · dsimp only
    split
    · exact ⟨_, rfl⟩
    · exact ⟨_, rfl⟩
  · exact ⟨p.inner.lex, rfl⟩

theorem handle_ne_ub {α : Type} (pol : Policy) (e : Exc) : (pol.handle e : Report α).fate ≠ .ub := by
  unfold Policy.handle
  cases e <;> dsimp only <;> (try split) <;> simp

theorem extract_ends {env : Env} {num : Bool} (o : POps JsonP) (ho : o.next = JsonP.getNextToken) (E : ∀ st, Halts o num false true (fun _ => I) (fun _ => A) m w st) (hT : SoundTypes env num false)
    (cfg : Cfg) (pol : Policy) (conv : Bool) (ty : Ty) (old : Val) (t : Bytes) (hS : Sound env num false ty) (hO : Shaped env ty old) :
    (extract { JsonP.inOps with ops := o } env cfg pol ty old (PI.init (JsonP.ofBytes t conv))).fate ≠ .ub := by
  have hg : (PI.init (JsonP.ofBytes t conv)).getToken o = .ok (.DocStart, PI.init ⟨(JsonP.ofBytes t conv).lex, ⟨.Done, .Init, [], true⟩⟩) := by
    unfold PI.getToken
    rw [if_neg (by simp [PI.init]), if_neg (by simp [PI.init]), ho]
    rfl
  have hd := deser_ends (cfg := cfg) (E _) hT _ ty old [] (PI.init ⟨(JsonP.ofBytes t conv).lex, ⟨.Done, .Init, [], true⟩⟩) hS hO
    (EClean.pre ⟨fresh_I t conv, rfl, rfl⟩) (Nat.lt_succ_self _)
  unfold extract
  dsimp only
  rw [hg]
  simp only [Res.ok_bind, ne_eq, not_true_eq_false, if_false]
  generalize deser o env cfg ty old (PI.init ⟨(JsonP.ofBytes t conv).lex, ⟨.Done, .Init, [], true⟩⟩) = r at hd ⊢
  cases r with
  | ub => exact absurd rfl hd.ne_ub
  | throw e => exact handle_ne_ub _ _
  | ok vp =>
    obtain ⟨v, p⟩ := vp
    dsimp only
    have hl : ELoose true (fun _ => I) (Pos.bump []) p := hd.1
    obtain ⟨lex, e⟩ := trailing_lex { JsonP.inOps with ops := o } rfl rfl pol p
    have := last_token o ho hl lex
    rw [e]
    generalize PI.getToken o { p with inner := { p.inner with lex := lex } } = r at this ⊢
    cases r with
    | ub => exact absurd rfl this
    | throw e =>
      dsimp only
      split
      · simp
      · exact handle_ne_ub _ _
    | ok x =>
      dsimp only
      repeat' split
      all_goals first | exact handle_ne_ub _ _ | simp

/-- A reader that hands out an indeterminate value instead of having undefined behaviour. -/
theorem low_indet (j : Indet) : LowOps JsonP.ops (opsJ j) where
  next _ := .same _
  getKey _ := .same _
  getInt k s := by
    show Low (JsonP.getInt k s) (getIntJ j k s)
    unfold JsonP.getInt Lexer.scanInt getIntJ
    cases readIntValue s.lex.inp k with
    | ub => exact .inl rfl
    | throw e => exact .inr rfl
    | ok x =>
      obtain ⟨⟨ok, v⟩, s'⟩ := x
      cases ok
      · exact .inr rfl
      · cases v
        · exact .inl rfl
        · exact .inr rfl
  getFlt f s := by
    show Low (JsonP.getFlt f s) (getFltJ j f s)
    unfold JsonP.getFlt Lexer.scanFlt getFltJ
    cases readFltValue s.lex.inp f with
    | ub => exact .inl rfl
    | throw e => exact .inr rfl
    | ok x =>
      obtain ⟨⟨ok, v⟩, s'⟩ := x
      cases ok
      · exact .inr rfl
      · cases v
        · exact .inl rfl
        · exact .inr rfl
  getBool _ := .same _
  getStr _ := .same _
  isNull _ := rfl
  ignoreData _ := .same _

end JEnds
end Thors
