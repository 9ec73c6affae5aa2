import Verif.Proofs.JsonSEnds
import Verif.Proofs.EndsExtract
/-
From the deserialiser to `extract` on a JSON stream.
-/
namespace Thors
open Spec StrIn

namespace SEnds

theorem fresh_I {i : IStr} (hi : In i) (hw : Whole i) (conv : Bool) : I ⟨(JsonS.ofStream i conv).lex, ⟨.Done, .Init, [], true⟩⟩ where
  ctl := ⟨rfl, .inr ⟨[], [], by simpa [CtlInv] using Inv.init⟩⟩
  inside := hi
  whole := hw
  null := fun h => by cases h
  init := fun _ => rfl

/-- The token behind the value can be asked for whatever the check for trailing data did to the input. -/
theorem last_token {P : Pos} {p : PI JsonS} (h : ELoose true (fun _ => I) P p) (lex : LexerS) :
    PI.getToken JsonS.ops { p with inner := { p.inner with lex := lex } } ≠ .ub := by
  unfold PI.getToken
  rw [if_neg (by simp [h.pb2])]
  split
  · simp
  · dsimp only
    have hc := h.inner.ctl
    refine Res.bind_ne_ub ?_ (by simp)
    show JsonS.getNextToken ⟨lex, p.inner.ctl⟩ ≠ .ub
    unfold JsonS.getNextToken
    dsimp only
    rw [if_neg (by simp [hc.1])]
    split
    · simp
    · split
      · simp
      · next he => exact (lexStep_ctl (s := ⟨lex, p.inner.ctl⟩) hc.1 he hc).ne_ub

theorem trailing_lex (pol : Policy) (p : PI JsonS) : ∃ lex, (trailing JsonS.inOps pol p).2 = { p with inner := { p.inner with lex := lex } } := by
  unfold trailing
  split
  · dsimp only
    split
    · exact ⟨_, rfl⟩
    · exact ⟨_, rfl⟩
  · exact ⟨p.inner.lex, rfl⟩

theorem start_token (i : IStr) (conv : Bool) :
    (PI.init (JsonS.ofStream i conv)).getToken JsonS.ops = .ok (.DocStart, PI.init ⟨(JsonS.ofStream i conv).lex, ⟨.Done, .Init, [], true⟩⟩) := rfl

theorem deser_start {env : Env} (hT : SoundTypes env true false) (cfg : Cfg) (conv : Bool) (ty : Ty) (old : Val) {i : IStr}
    (hi : In i) (hw : Whole i) (hS : Sound env true false ty) (hO : Shaped env ty old) :
    Safe (fun x => ELoose true (fun _ => I) (Pos.bump []) x.2)
      (deser JsonS.ops env cfg ty old (PI.init ⟨(JsonS.ofStream i conv).lex, ⟨.Done, .Init, [], true⟩⟩)) :=
  (deser_ends (cfg := cfg) (jsonS_ends _) hT _ ty old [] _ hS hO (EClean.pre ⟨fresh_I hi hw conv, rfl, rfl⟩) (Nat.lt_succ_self _)).mono fun _ h => h.1

theorem extract_ends {env : Env} (hT : SoundTypes env true false) (cfg : Cfg) (pol : Policy) (conv : Bool) (ty : Ty) (old : Val) {i : IStr}
    (hi : In i) (hw : Whole i) (hS : Sound env true false ty) (hO : Shaped env ty old) :
    (jsonStreamExtract env cfg pol conv ty old i).fate ≠ .ub := by
  have hd := deser_start hT cfg conv ty old hi hw hS hO
  unfold jsonStreamExtract extract
  rw [show (PI.init (JsonS.ofStream i conv)).getToken JsonS.inOps.ops = _ from start_token i conv]
  simp only [Res.ok_bind, ne_eq, not_true_eq_false, if_false]
  rw [show JsonS.inOps.ops = JsonS.ops from rfl]
  generalize deser JsonS.ops env cfg ty old (PI.init ⟨(JsonS.ofStream i conv).lex, ⟨.Done, .Init, [], true⟩⟩) = r at hd ⊢
  cases r with
  | ub => exact absurd rfl hd.ne_ub
  | throw e => exact JEnds.handle_ne_ub _ _
  | ok vp =>
    obtain ⟨v, p⟩ := vp
    dsimp only
    obtain ⟨lex, e⟩ := trailing_lex pol p
    have := last_token hd lex
    rw [e]
    generalize PI.getToken JsonS.ops { p with inner := { p.inner with lex := lex } } = r at this ⊢
    cases r with
    | ub => exact absurd rfl this
    | throw e =>
      dsimp only
      split
      · simp
      · exact JEnds.handle_ne_ub _ _
    | ok x =>
      dsimp only
      repeat' split
      all_goals first | exact JEnds.handle_ne_ub _ _ | simp

theorem import_ends {env : Env} (hT : SoundTypes env true false) (cfg : Cfg) (conv : Bool) (ty : Ty) (old : Val) {i : IStr}
    (hi : In i) (hw : Whole i) (hS : Sound env true false ty) (hO : Shaped env ty old) :
    jsonStreamImport env cfg conv ty old i ≠ .ub := by
  suffices h : Safe (fun _ => True) (jsonStreamImport env cfg conv ty old i) from h.ne_ub
  unfold jsonStreamImport importValue
  rw [start_token]
  simp only [Res.ok_bind, ne_eq, not_true_eq_false, if_false]
  refine Safe.bind (P := fun _ => True) ?_ fun _ _ => .ok trivial
  refine (deser_start hT cfg conv ty old hi hw hS hO).bind ?_
  rintro ⟨v, p⟩ h1
  dsimp only at h1 ⊢
  refine Safe.bind (P := fun _ => True) (Safe.of (fun _ _ => trivial) (last_token h1 p.inner.lex)) ?_
  rintro ⟨k, p⟩ -
  dsimp only
  split
  · exact .throwStd
  · exact .ok trivial

/-! ### pointers, on any parser -/

section
open Lean.Order
variable {σ : Type} {o : POps σ} {loop : Nat → PI σ}

/-- A parser that goes on handing out the token `Error` while it answers that the value is null. -/
structure Stuck (o : POps σ) (loop : Nat → PI σ) : Prop where
  token : ∀ n, (loop n).getToken o = .ok (.Error, loop n)
  push : ∀ n, (loop n).pushBackToken .Error = loop n
  null : ∀ n, o.isNull (loop n).inner = true
  skip : ∀ n, (do let s ← o.ignoreData (loop n).inner; return (Val.null, { loop n with inner := s }) : Res (Val × PI σ)) = .ok (.null, loop (n + 1))

theorem Stuck.element (h : Stuck o loop) (env : Env) (cfg : Cfg) (t : Ty) (old : Val) (n : Nat) :
    deser o env cfg (.uptr t) old (loop n) = .ok (.null, loop (n + 1)) := by
  rw [deser, h.token]
  simp only [Res.ok_bind]
  rw [if_pos (h.null n), h.skip]

/-- One more null pointer. -/
theorem Stuck.round (h : Stuck o loop) (env : Env) (cfg : Cfg) (t : Ty) (vs : List Val) (n : Nat) :
    deserVec o env cfg .back (.uptr t) vs (loop n) = deserVec o env cfg .back (.uptr t) (vs ++ [.null]) (loop (n + 1)) := by
  conv => lhs; rw [deserVec]
  rw [h.token]
  simp only [Res.ok_bind]
  rw [if_neg (by decide), h.push, h.element]
  rfl

/-- It goes on like that. -/
theorem Stuck.ub (h : Stuck o loop) (env : Env) (cfg : Cfg) (t : Ty) : ∀ vs n, deserVec o env cfg .back (.uptr t) vs (loop n) = .ub := by
  refine fun vs n => Low.ub ((deser.mutual_fixpoint_induct o env cfg
    (fun f => ∀ old n, Low (f (.uptr t) old (loop n)) (.ok (.null, loop (n + 1))))
    (fun _ => True) (fun _ => True) (fun _ => True) (fun _ => True)
    (fun f => ∀ vs n, Low (f .back (.uptr t) vs (loop n)) .ub) ?_ ?_ ?_ ?_ ?_ ?_ ?_ ?_ ?_ ?_ ?_ ?_).2.2.2.2.2 vs n)
  · exact admissible_pi _ fun old => admissible_pi _ fun n =>
      admissible_apply (fun (_ : Ty) (f : Val → PI σ → Res (Val × PI σ)) => Low (f old (loop n)) _) _
        (admissible_apply (fun (_ : Val) (f : PI σ → Res (Val × PI σ)) => Low (f (loop n)) _) _
          (admissible_apply (fun (_ : PI σ) (r : Res (Val × PI σ)) => Low r _) _ (Low.admissible _)))
  · exact admissible_const_true
  · exact admissible_const_true
  · exact admissible_const_true
  · exact admissible_const_true
  · exact admissible_pi _ fun vs => admissible_pi _ fun n =>
      admissible_apply (fun (_ : SeqKind) (f : Ty → List Val → PI σ → Res (Val × PI σ)) => Low (f (.uptr t) vs (loop n)) _) _
        (admissible_apply (fun (_ : Ty) (f : List Val → PI σ → Res (Val × PI σ)) => Low (f vs (loop n)) _) _
          (admissible_apply (fun (_ : List Val) (f : PI σ → Res (Val × PI σ)) => Low (f (loop n)) _) _
            (admissible_apply (fun (_ : PI σ) (r : Res (Val × PI σ)) => Low r _) _ (Low.admissible _))))
  · intro fD fc fd ff fv hD hc hd hf hv old n
    refine .inr ?_
    dsimp only
    rw [h.token]
    simp only [Res.ok_bind]
    rw [if_pos (h.null n), h.skip]
  all_goals try (intros; trivial)
  · intro fD fv hD hv vs n
    dsimp only
    rw [h.token]
    simp only [Res.ok_bind]
    rw [if_neg (by decide), h.push]
    rcases hD ((Ty.uptr t).default env) n with e | e
    · rw [e]; exact .inl rfl
    · rw [e]; exact hv _ _

end
end SEnds
end Thors
