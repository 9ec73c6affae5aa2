import Verif.Spec.YamlEnds
import Verif.Proofs.Ends
/-
An import from YAML comes to an end without undefined behaviour.
-/
namespace Thors
open Spec StrIn

namespace YEnds

/-- The open collections of a position inside a document. -/
inductive Stk : Pos → List Bool → Prop
  | doc (n : Nat) : Stk [(.Open, n)] []
  | map (n : Nat) {P : Pos} {st : List Bool} : Stk P st → Stk ((.Map, n) :: P) (true :: st)
  | arr (n : Nat) {P : Pos} {st : List Bool} : Stk P st → Stk ((.Array, n) :: P) (false :: st)

theorem Stk.bump {P : Pos} {st : List Bool} (h : Stk P st) : Stk P.bump st := by
  cases h <;> constructor <;> assumption

/-- After an error. -/
structure Gone (s : YamlP) : Prop where
  first : s.first = false
  error : s.error = true
  cur : s.cur = .noEvent ∨ s.cur = .streamEnd

/-- In a document, at a position. -/
structure At (P : Pos) (s : YamlP) : Prop where
  first : s.first = false
  error : s.error = false
  state : s.state = P
  events : ∃ st, Stk P st ∧ Closes st s.events

def I (P : Pos) (s : YamlP) : Prop := Gone s ∨ At P s

/-- The last event is a scalar. -/
def Scalar (s : YamlP) : Prop := ∃ t, s.cur = .scalar t

structure A (P : Pos) (t : Tok) (s : YamlP) : Prop where
  scalar : t = .Key ∨ t = .Value → Scalar s
  only : Scalar s → t = .Key ∨ t = .Value
  key : KeyPos P → t = .Key ∨ t = .MapEnd ∨ t = .Error
  error : t = .Error → Gone s

def m (s : YamlP) : Nat := s.events.length

/-- Every token takes an event. -/
def w : Tok → Nat
  | .Error => 0
  | _ => 1

theorem Gone.dead {s : YamlP} (h : Gone s) : Dead YamlP.ops s := by
  obtain ⟨es, st, f, er, c⟩ := s
  obtain ⟨h1, h2, h3⟩ := h
  simp only at h1 h2 h3
  subst h1 h2
  rcases h3 with rfl | rfl <;> exact ⟨rfl, rfl⟩

theorem Gone.anywhere {s : YamlP} (h : Gone s) (P : Pos) : I P s := .inl h

theorem Gone.noScalar {s : YamlP} (h : Gone s) : ¬ Scalar s := by
  rintro ⟨t, e⟩
  rcases h.cur with e' | e' <;> rw [e] at e' <;> cases e'

theorem key_iff (k : YState) (n : Nat) (P : Pos) : KeyPos ((k, n) :: P) ↔ k = .Map ∧ (n + 1) % 2 = 1 := by
  constructor
  · rintro ⟨n', Q, e, h⟩
    cases e
    exact ⟨rfl, by omega⟩
  · rintro ⟨rfl, h⟩
    exact ⟨n, P, rfl, by omega⟩

/-- What a token is followed by. -/
theorem token {P : Pos} {t : Tok} {Q : Pos} {st : List Bool} {n : Nat} {es : List YEv} {e : YEv} (hQ : Stk Q st) (hc : Closes st es) (he : Q = P.after t)
    (h1 : (t = .Key ∨ t = .Value) ↔ ∃ x, e = .scalar x) (h2 : KeyPos P → t = .Key ∨ t = .MapEnd) (h3 : t ≠ .Error) (hn : n = es.length + 1) :
    Safe (fun x => I (P.after x.1) x.2 ∧ A P x.1 x.2 ∧ m x.2 + w x.1 ≤ n) (.ok (t, (⟨es, Q, false, false, e⟩ : YamlP))) := by
  refine .ok ⟨.inr ⟨rfl, rfl, he, st, he ▸ hQ, hc⟩, ⟨h1.1, h1.2, fun h => (h2 h).imp_right .inl, fun h => absurd h h3⟩, ?_⟩
  have : w t ≤ 1 := by cases t <;> decide
  unfold m
  dsimp only
  omega

theorem parse_ends {P : Pos} {st : List Bool} {es : List YEv} {c : YEv} (hP : Stk P st) (hc : Closes st es) :
    Safe (fun x => I (P.after x.1) x.2 ∧ A P x.1 x.2 ∧ m x.2 + w x.1 ≤ es.length) (YamlP.parseEvent ⟨es, P, false, false, c⟩) := by
  cases es with
  | nil =>
    have hg : Gone ⟨[], P, false, true, .noEvent⟩ := ⟨rfl, rfl, .inl rfl⟩
    exact .ok ⟨.inl hg, ⟨by simp, fun h => absurd h hg.noScalar, by simp, fun _ => hg⟩, Nat.le_refl _⟩
  | cons e es =>
    obtain ⟨k, n, Q, rfl⟩ : ∃ k n Q, P = (k, n) :: Q := by cases hP <;> exact ⟨_, _, _, rfl⟩
    cases e with
    | noEvent => exact .throwStd
    | streamStart => exact .throwStd
    | alias => exact .throwStd
    | streamEnd =>
      have hg : Gone ⟨es, (k, n) :: Q, false, true, .streamEnd⟩ := ⟨rfl, rfl, .inr rfl⟩
      exact .ok ⟨.inl hg, ⟨by simp, fun h => absurd h hg.noScalar, by simp, fun _ => hg⟩, Nat.le_succ _⟩
    | docStart =>
      cases hP with
      | doc =>
        cases n with
        | zero =>
          refine token (P := [(.Open, 0)]) (.doc 1) hc rfl (by simp) (fun h => ?_) (by simp) rfl
          exact absurd ((key_iff _ _ _).1 h).1 (by simp)
        | succ n => exact .throwStd
      | map => exact .throwStd
      | arr => exact .throwStd
    | docEnd =>
      cases hP with
      | doc =>
        refine token (P := [(.Open, n)]) (.doc n) hc rfl (by simp) (fun h => ?_) (by simp) rfl
        exact absurd ((key_iff _ _ _).1 h).1 (by simp)
      | map => exact .throwStd
      | arr => exact .throwStd
    | mapEnd =>
      cases hP with
      | doc => exact absurd hc (by simp [Closes])
      | map _ hQ =>
        simp only [YamlP.parseEvent]
        split
        · exact .throwStd
        · exact token (P := (.Map, n) :: Q) hQ hc rfl (by simp) (fun _ => .inr rfl) (by simp) rfl
      | arr => exact absurd hc (by simp [Closes])
    | seqEnd =>
      cases hP with
      | doc => exact absurd hc (by simp [Closes])
      | map => exact absurd hc (by simp [Closes])
      | arr _ hQ =>
        simp only [YamlP.parseEvent]
        refine token (P := (.Array, n) :: Q) hQ hc rfl (by simp) (fun h => ?_) (by simp) rfl
        exact absurd ((key_iff _ _ _).1 h).1 (by simp)
    | mapStart =>
      have hc' : Closes (true :: st) es := by cases hP <;> exact hc
      simp only [YamlP.parseEvent]
      split
      · exact .throwStd
      · next hk => exact token (P := (k, n) :: Q) (.map 0 hP.bump) hc' rfl (by simp) (fun h => absurd ((key_iff _ _ _).1 h) hk) (by simp) rfl
    | seqStart =>
      have hc' : Closes (false :: st) es := by cases hP <;> exact hc
      simp only [YamlP.parseEvent]
      split
      · exact .throwStd
      · next hk => exact token (P := (k, n) :: Q) (.arr 0 hP.bump) hc' rfl (by simp) (fun h => absurd ((key_iff _ _ _).1 h) hk) (by simp) rfl
    | scalar x =>
      have hc' : Closes st es := by cases hP <;> exact hc
      simp only [YamlP.parseEvent]
      split
      · exact token (P := (k, n) :: Q) hP.bump hc' rfl (by simp) (fun _ => .inl rfl) (by simp) rfl
      · next hk => exact token (P := (k, n) :: Q) hP.bump hc' rfl (by simp) (fun h => absurd ((key_iff _ _ _).1 h) hk) (by simp) rfl

theorem next_ends {P : Pos} {s : YamlP} (h : I P s) : Safe (fun x => I (P.after x.1) x.2 ∧ A P x.1 x.2 ∧ m x.2 + w x.1 ≤ m s) s.getNextToken := by
  rcases h with h | ⟨h1, h2, h3, st, h4, h5⟩
  · rw [show s.getNextToken = .ok (.Error, s) from h.dead.1]
    exact .ok ⟨.inl h, ⟨by simp, fun h' => absurd h' h.noScalar, by simp, fun _ => h⟩, Nat.le_refl _⟩
  · obtain ⟨es, P', f, er, c⟩ := s
    simp only at h1 h2 h3 h5
    subst h1 h2 h3
    exact parse_ends h4 h5

theorem scan_safe (k : IntKind) (t : Bytes) : Safe (fun _ => True) (YamlP.scanText k t) := by
  unfold YamlP.scanText
  split
  · split
    · exact .ok trivial
    · exact .throwStd
  · split
    · exact .throwStd
    · exact .ok trivial

theorem scanFlt_safe (f : FKind) (t : Bytes) : Safe (fun _ => True) (YamlP.scanTextFlt f t) := by
  unfold YamlP.scanTextFlt
  dsimp only
  repeat' split
  all_goals first | exact .throwStd | exact .ok trivial

theorem yaml_ends (st : ParseType) : Halts YamlP.ops true true false I A m w st where
  error := rfl
  mapStart := by decide
  arrayStart := by decide
  loose h := by cases h
  keyTok _ P t s h ha := ha.key h
  next P s h := next_ends h
  getKey P t s hk h hne ha := by
    have ha : A P t s := ha.resolve_left (by simp)
    show Safe _ s.getString
    rcases ha.key hk with rfl | rfl | rfl
    · obtain ⟨x, e⟩ := ha.scalar (.inl rfl)
      unfold YamlP.getString
      rw [e]
      exact .ok ⟨h, .inl (Nat.lt_succ_self _)⟩
    · exact absurd rfl hne
    · have hg := ha.error rfl
      unfold YamlP.getString
      rcases hg.cur with e | e <;> rw [e] <;> exact .ok ⟨hg.anywhere _, .inr hg.dead⟩
  getInt _ k P s h ha := by
    obtain ⟨x, e⟩ := ha.scalar (.inr rfl)
    show Safe _ (s.getInt k)
    unfold YamlP.getInt YamlP.scalarText
    rw [e]
    exact (scan_safe k x).bind fun _ _ => .ok ⟨h, Nat.lt_succ_self _⟩
  getFlt _ k P s h ha := by
    obtain ⟨x, e⟩ := ha.scalar (.inr rfl)
    show Safe _ (s.getFlt k)
    unfold YamlP.getFlt YamlP.scalarText
    rw [e]
    exact (scanFlt_safe k x).bind fun _ _ => .ok ⟨h, Nat.lt_succ_self _⟩
  getBool P s h ha := by
    obtain ⟨x, e⟩ := ha.scalar (.inr rfl)
    show Safe _ s.getBool
    unfold YamlP.getBool YamlP.getString
    rw [e]
    simp only [Res.ok_bind]
    split
    · exact .ok ⟨h, Nat.lt_succ_self _⟩
    · split
      · exact .ok ⟨h, Nat.lt_succ_self _⟩
      · exact .throwStd
  getStr P s h ha := by
    obtain ⟨x, e⟩ := ha.scalar (.inr rfl)
    show Safe _ s.getString
    unfold YamlP.getString
    rw [e]
    exact .ok ⟨h, Nat.lt_succ_self _⟩
  null P t s h ha hn := by
    have ha : A P t s := ha.resolve_left (by simp)
    have hs : Scalar s := by
      have hn : s.isValueNull = true := hn
      unfold YamlP.isValueNull at hn
      split at hn
      · next x e => exact ⟨x, e⟩
      · cases hn
    refine .ok ?_
    rcases ha.only hs with rfl | rfl
    · exact ⟨h, Nat.le_succ _, fun _ => Nat.lt_succ_self _⟩
    · exact ⟨h, Nat.le_succ _, fun _ => Nat.lt_succ_self _⟩
  skip _ P t s h ha _ := .ok fun ht => by
    rcases ht with rfl | rfl
    · exact ⟨h, Nat.lt_succ_self _⟩
    · exact ⟨h, Nat.lt_succ_self _⟩

theorem start_inv (es : List YEv) (hc : Closes [] es) :
    Safe (fun x => x.1 = .DocStart → EClean I [(.Open, 1)] x.2) ((PI.init (YamlP.ofEvents es)).getToken YamlP.ops) := by
  show Safe _ (do let (t, s) ← YamlP.getNextToken ⟨es, [], true, false, .noEvent⟩; return (t, (⟨s, .Error, .Error⟩ : PI YamlP)))
  unfold YamlP.getNextToken
  simp only [if_true]
  split
  · next es' =>
    simp only [Bool.false_eq_true, if_false]
    refine (parse_ends (.doc 0) (show Closes [] es' from hc)).bind ?_
    rintro ⟨t, s⟩ ⟨h1, -, -⟩
    exact .ok fun e => ⟨by dsimp only at e; subst e; exact h1, rfl, rfl⟩
  · exact .ok fun e => by cases e
  · exact .ok fun e => by cases e

theorem import_ends {env : Env} (hT : SoundTypes env true true) (cfg : Cfg) (ty : Ty) (old : Val) (es : List YEv) (hS : Sound env true true ty)
    (hO : Shaped env ty old) (hc : Closes [] es) : importValue YamlP.ops env cfg ty old (PI.init (YamlP.ofEvents es)) ≠ .ub := by
  suffices h : Safe (fun _ => True) (importValue YamlP.ops env cfg ty old (PI.init (YamlP.ofEvents es))) from h.ne_ub
  unfold importValue
  refine (start_inv es hc).bind ?_
  rintro ⟨k, p⟩ hk
  dsimp only at hk ⊢
  split
  · exact .throwStd
  · next h =>
    have hp := hk (by simpa using h)
    refine (deser_ends (cfg := cfg) (yaml_ends _) hT _ ty old _ p hS hO hp.pre (Nat.lt_succ_self _)).bind ?_
    rintro ⟨v, p⟩ ⟨h1, -, -, -⟩
    dsimp only at h1 ⊢
    refine ((h1.pre (yaml_ends cfg.strict)).getToken (yaml_ends cfg.strict)).bind ?_
    rintro ⟨k, p⟩ -
    dsimp only
    split
    · exact .throwStd
    · exact .ok trivial

end YEnds
end Thors
