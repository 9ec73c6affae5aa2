import Verif.Spec.SharedEnds
import Verif.Proofs.Ends
/-
Importing shared pointers in Exact mode comes to an end without undefined behaviour: the format independent part.
-/
namespace Thors
open Spec StrIn

section
variable {σ : Type} {o : POps σ} {num nul L : Bool} {I : Pos → σ → Prop} {A : Pos → Tok → σ → Prop} {m : σ → Nat} {w : Tok → Nat}
  {S : SEnv} {cfg : Cfg}

theorem dead_token {p : PI σ} (h : Dead o p.inner) (h1 : p.pb1 = .Error) (h2 : p.pb2 = .Error) : p.getToken o = .ok (.Error, p) := by
  unfold PI.getToken
  rw [if_neg (by simp [h2]), if_neg (by simp [h1]), h.1]
  rfl

theorem dead_sdeser (t : STy) (st : Loaded) (p : PI σ) (h : Dead o p.inner) (h1 : p.pb1 = .Error) (h2 : p.pb2 = .Error) :
    Safe (fun _ => False) (sdeser o S cfg t st p) := by
  have e := dead_token h h1 h2
  cases t with
  | plain t =>
    rw [sdeser]
    exact (dead_deser S.env cfg t _ p h h1 h2).bind fun _ hf => hf.elim
  | vec t =>
    rw [sdeser, e]
    exact .throwStd
  | cls c =>
    rw [sdeser, e]
    exact .throwStd
  | shared t =>
    rw [sdeser, e]
    simp only [Res.ok_bind, reduceCtorEq, false_and, if_false]
    have e3 : p.pushBackToken .Error = p := by
      obtain ⟨s, a, b⟩ := p
      dsimp only at h1
      subst h1
      rfl
    rw [e3, e]
    exact .throwStd

/-- What is expected of reading a value. -/
def SPost (nul L : Bool) (I : Pos → σ → Prop) (m : σ → Nat) (w : Tok → Nat) (P : Pos) (t : STy) (n : Nat) (x : (SVal × Loaded) × PI σ) : Prop :=
  ELoose L I P.bump x.2 ∧ left m w x.2 ≤ n ∧ (nul = true ∨ loosely t = false → left m w x.2 < n)

def SBelow (o : POps σ) (num nul L : Bool) (I : Pos → σ → Prop) (A : Pos → Tok → σ → Prop) (m : σ → Nat) (w : Tok → Nat) (S : SEnv) (cfg : Cfg) (n : Nat) : Prop :=
  ∀ t st P p, SSound S.env num nul t → EPre L I A P p → left m w p < n →
    Safe (SPost nul L I m w P t (left m w p)) (sdeser o S cfg t st p)

theorem svec_ends (E : Halts o num nul L I A m w cfg.strict) {n : Nat} (H : SBelow o num nul L I A m w S cfg n) (t : STy)
    (ht : SSound S.env num nul t) (hn : nul = true ∨ loosely t = false) (Q : Pos) : ∀ (j i : Nat) (vs : List SVal) (st : Loaded) (p : PI σ), ELoose L I ((.Array, i) :: Q) p →
      left m w p < j → left m w p < n →
      Safe (fun x => ELoose L I Q x.2 ∧ left m w x.2 ≤ left m w p) (sdeserVec o S cfg t vs st p)
  | 0, _, _, _, _, _, h, _ => absurd h (Nat.not_lt_zero _)
  | j + 1, i, vs, st, p, hp, hj, hpn => by
    rw [sdeserVec]
    refine ((hp.pre E).getToken E).bind ?_
    rintro ⟨k, p1⟩ ⟨hc, ha, hl⟩
    dsimp only at hc ha hl ⊢
    split
    · next hk => subst hk; exact .ok ⟨hc.loose, by dsimp only; rw [hc.lft E]; omega⟩
    · obtain ⟨q1, q2⟩ := hc.push E ha
      refine (H t st _ (p1.pushBackToken k) ht q1 (by omega)).bind ?_
      rintro ⟨v, p2⟩ ⟨r1, r3, r4⟩
      have r4 := r4 hn
      dsimp only at r1 r3 r4 ⊢
      exact (svec_ends E H t ht hn Q j (i + 1) _ _ p2 r1 (by omega) (by omega)).mono fun x hx => ⟨hx.1, by have := hx.2; omega⟩

theorem smemberAt_mem {key : Bytes} : ∀ (ms : List (Bytes × STy)) (j i : Nat) (t : STy), smemberAt key ms j = some (i, t) → ∃ m ∈ ms, m.2 = t
  | [], _, _, _, h => by simp [smemberAt] at h
  | (n, u) :: ms, j, i, t, h => by
    rw [smemberAt] at h
    split at h
    · cases h; exact ⟨_, List.mem_cons_self, rfl⟩
    · obtain ⟨m, h1, h2⟩ := smemberAt_mem ms _ _ _ h
      exact ⟨m, List.mem_cons_of_mem _ h1, h2⟩

theorem smembers_ends (E : Halts o num nul L I A m w cfg.strict) {n : Nat} (H : SBelow o num nul L I A m w S cfg n) (ms : List (Bytes × STy))
    (hd : ∀ m ∈ ms, SSound S.env num nul m.2) (Q : Pos) : ∀ (j i : Nat) (found : List Bytes) (fs : List SVal) (st : Loaded) (p : PI σ), i % 2 = 0 →
      ELoose L I ((.Map, i) :: Q) p → left m w p < j →
      left m w p < n → Safe (fun x => ELoose L I Q x.2 ∧ left m w x.2 ≤ left m w p) (sdeserMembers o S cfg ms found fs st p)
  | 0, _, _, _, _, _, _, _, h, _ => absurd h (Nat.not_lt_zero _)
  | j + 1, i, found, fs, st, p, hi, hp, hj, hpn => by
    rw [sdeserMembers]
    refine ((hp.pre E).getToken E).bind ?_
    rintro ⟨k, p1⟩ ⟨hc, ha, hl⟩
    dsimp only at hc ha hl ⊢
    split
    · next hk =>
      subst hk
      split
      · exact .throwStd
      · exact .ok ⟨hc.loose, by dsimp only; rw [hc.lft E]; omega⟩
    · next hne =>
      refine (hc.liftKey (E.getKey _ k _ (keyPos_even hi) hc.inner hne ha)).bind ?_
      rintro ⟨key, p2⟩ ⟨hc2, hl2⟩
      dsimp only at hc2 hl2 ⊢
      have e2 := hc2.lft E
      cases hf : smemberAt key ms 0 with
      | none =>
        dsimp only
        rcases hl2 with hl2 | hdead
        · refine (hc2.loose.ignore E).bind fun p3 h3 => ?_
          refine (smembers_ends E H ms hd Q j (i + 2) found fs st p3 (by omega) h3.1 (by omega) (by omega)).mono fun x hx => ⟨hx.1, by have := hx.2; omega⟩
        · refine Safe.bind (P := fun _ => False) ?_ fun _ hf => hf.elim
          unfold PI.ignoreValue
          split
          · exact .throwStd
          · exact (ignore_dead hdead).bind fun _ hf => hf.elim
      | some r =>
        obtain ⟨a, t⟩ := r
        dsimp only
        obtain ⟨mm, hm, rfl⟩ := smemberAt_mem ms 0 a t hf
        rcases hl2 with hl2 | hdead
        · refine (H mm.2 st _ p2 (hd mm hm) hc2.pre (by omega)).bind ?_
          rintro ⟨v, p3⟩ ⟨r1, r3, r4⟩
          dsimp only at r1 r3 r4 ⊢
          refine (smembers_ends E H ms hd Q j (i + 2) _ _ _ p3 (by omega) r1 (by omega) (by omega)).mono fun x hx => ⟨hx.1, by have := hx.2; omega⟩
        · exact (dead_sdeser mm.2 _ p2 hdead hc2.pb1 hc2.pb2).bind fun _ hf => hf.elim

theorem sinfo_ends (E : Halts o num nul L I A m w cfg.strict) (hnum : num = true) (hx : cfg.strict = .Exact) {n : Nat} (H : SBelow o num nul L I A m w S cfg n) (t : STy)
    (ht : SSound S.env num nul t) (Q : Pos) : ∀ (j i : Nat) (found : List Bytes) (name : Option Int) (data : Option (Option Nat)) (st : Loaded) (p : PI σ), i % 2 = 0 →
      (found.contains infoName = true → name ≠ none) → ELoose L I ((.Map, i) :: Q) p → left m w p < j →
      left m w p < n → Safe (fun x => ELoose L I Q x.2 ∧ left m w x.2 ≤ left m w p ∧ x.1.1 ≠ none) (sdeserInfo o S cfg t found name data st p)
  | 0, _, _, _, _, _, _, _, _, _, h, _ => absurd h (Nat.not_lt_zero _)
  | j + 1, i, found, name, data, st, p, hi, hname, hp, hj, hpn => by
    rw [sdeserInfo]
    refine ((hp.pre E).getToken E).bind ?_
    rintro ⟨k, p1⟩ ⟨hc, ha, hl⟩
    dsimp only at hc ha hl ⊢
    split
    · next hk =>
      subst hk
      split
      · exact .throwStd
      · next hfound =>
        refine .ok ⟨hc.loose, by dsimp only; rw [hc.lft E]; omega, hname ?_⟩
        cases hf : found.contains infoName with
        | true => rfl
        | false => exact absurd ⟨hx, by rw [hf]; rfl⟩ hfound
    · next hne =>
      refine (hc.liftKey (E.getKey _ k _ (keyPos_even hi) hc.inner hne ha)).bind ?_
      rintro ⟨key, p2⟩ ⟨hc2, hl2⟩
      dsimp only at hc2 hl2 ⊢
      have e2 := hc2.lft E
      split
      · rcases hl2 with hl2 | hdead
        · refine ((hc2.pre (L := L)).getToken E).bind ?_
          rintro ⟨k3, p3⟩ ⟨hc3, ha3, hl3⟩
          dsimp only at hc3 ha3 hl3 ⊢
          split
          · exact .throwStd
          next hk3 =>
          have hk3 : k3 = .Value := by simpa using hk3
          subst hk3
          refine (hc3.lift (E.getInt hnum intmax (Pos.bump ((.Map, i) :: Q)) _ hc3.inner (ha3.resolve_left (by simp)))).bind ?_
          rintro ⟨v, p4⟩ ⟨hc4, hl4⟩
          dsimp only at hc4 hl4 ⊢
          have e4 := hc4.lft E
          refine (sinfo_ends E hnum hx H t ht Q j (i + 2) _ _ _ _ p4 (by omega) (by simp) hc4.loose (by omega) (by omega)).mono fun x hx => ⟨hx.1, by have := hx.2.1; omega, hx.2.2⟩
        · rw [dead_token hdead hc2.pb1 hc2.pb2]
          exact .throwStd
      · next hkey =>
        have keep : ∀ l : List Bytes, (key :: l).contains infoName = true → l.contains infoName = true := by
          intro l hl
          have hne : infoName ≠ key := fun e => hkey e.symm
          simpa [hne] using hl
        split
        · rcases hl2 with hl2 | hdead
          · refine ((hc2.pre (L := L)).getToken E).bind ?_
            rintro ⟨k3, p3⟩ ⟨hc3, ha3, hl3⟩
            dsimp only at hc3 ha3 hl3 ⊢
            split
            · next hnull =>
              refine (E.null _ k3 _ hc3.inner ha3 hnull).bind fun s hs => ?_
              have e : left m w { p3 with inner := s } = m s := by unfold left; dsimp only; rw [hc3.pb1, E.error]; rfl
              have := hs.2.1
              refine (sinfo_ends E hnum hx H t ht Q j (i + 2) _ _ _ _ { p3 with inner := s } (by omega) (fun h => hname (keep _ h)) ⟨hs.1, hc3.pb2, .inl hc3.pb1⟩ (by omega) (by omega)).mono
                fun x hx => ⟨hx.1, by have := hx.2.1; omega, hx.2.2⟩
            · obtain ⟨q1, q2⟩ := hc3.push E ha3
              refine (H t (release data st) _ (p3.pushBackToken k3) ht q1 (by omega)).bind ?_
              rintro ⟨v, p4⟩ ⟨r1, r3, -⟩
              dsimp only at r1 r3 ⊢
              refine (sinfo_ends E hnum hx H t ht Q j (i + 2) _ _ _ _ p4 (by omega) (fun h => hname (keep _ h)) r1 (by omega) (by omega)).mono
                fun x hx => ⟨hx.1, by have := hx.2.1; omega, hx.2.2⟩
          · rw [dead_token hdead hc2.pb1 hc2.pb2]
            simp only [Res.ok_bind, hdead.2, Bool.false_eq_true, if_false]
            have e3 : p2.pushBackToken .Error = p2 := by
              have h1 := hc2.pb1
              obtain ⟨s, a, b⟩ := p2
              dsimp only at h1
              subst h1
              rfl
            rw [e3]
            exact (dead_sdeser t (release data st) p2 hdead hc2.pb1 hc2.pb2).bind fun _ hf => hf.elim
        · unfold PI.ignoreValue
          rw [if_pos (by simp [hx])]
          exact .throwStd

theorem getShared_safe (t : STy) {name : Option Int} (hn : name ≠ none) (data : Option (Option Nat)) (st : Loaded) : Safe (fun _ => True) (getShared t name data st) := by
  unfold getShared
  cases name with
  | none => exact absurd rfl hn
  | some i =>
    dsimp only
    cases data with
    | some d => exact .ok trivial
    | none =>
      dsimp only
      cases st.saved.lookup i with
      | none => exact .throwStd
      | some r =>
        dsimp only
        split
        · exact .ok trivial
        · exact .throwStd

theorem sdeser_step (E : Halts o num nul L I A m w cfg.strict) (hnum : num = true) (hx : cfg.strict = .Exact) (hT : SSoundTypes S num nul) {n : Nat}
    (H : SBelow o num nul L I A m w S cfg n) : SBelow o num nul L I A m w S cfg (n + 1) := by
  intro t st P p hS hp hn
  cases t with
  | plain t =>
    rw [sdeser]
    refine (deser_ends (cfg := cfg) E hT.plain _ t _ P p hS (default_shaped hT.plain t hS) hp (Nat.lt_succ_self _)).bind ?_
    rintro ⟨v, p1⟩ ⟨h1, -, h3, h4⟩
    exact .ok ⟨h1, h3, h4⟩
  | vec t =>
    rw [sdeser]
    refine (hp.getToken E).bind ?_
    rintro ⟨k, p1⟩ ⟨hc, ha, hl⟩
    dsimp only at hc ha hl ⊢
    split
    · exact .throwStd
    next hk =>
    have hk : k = .ArrayStart := by simpa using hk
    subst hk
    have e := hc.lft E
    have := E.arrayStart
    refine (svec_ends E H t hS.2 hS.1 _ _ 0 [] st p1 hc.loose (Nat.lt_succ_self _) (by omega)).mono fun x hx => ⟨hx.1, ?_, fun _ => ?_⟩
    · have := hx.2; omega
    · have := hx.2; omega
  | cls c =>
    rw [sdeser]
    refine (hp.getToken E).bind ?_
    rintro ⟨k, p1⟩ ⟨hc, ha, hl⟩
    dsimp only at hc ha hl ⊢
    split
    · exact .throwStd
    next hk =>
    have hk : k = .MapStart := by simpa using hk
    subst hk
    have e := hc.lft E
    have := E.mapStart
    refine (smembers_ends E H _ (hT.cls c) _ _ 0 [] _ st p1 rfl hc.loose (Nat.lt_succ_self _) (by omega)).mono fun x hx => ⟨hx.1, ?_, fun _ => ?_⟩
    · have := hx.2; omega
    · have := hx.2; omega
  | shared t =>
    rw [sdeser]
    refine (hp.getToken E).bind ?_
    rintro ⟨k, p1⟩ ⟨hc, ha, hl⟩
    dsimp only at hc ha hl ⊢
    split
    · next hnull =>
      refine (E.null P k _ hc.inner ha hnull.2).bind fun s hs => ?_
      have e : left m w { p1 with inner := s } = m s := by unfold left; dsimp only; rw [hc.pb1, E.error]; rfl
      have := hs.2.2 (.inr hnull.1)
      exact .ok ⟨⟨hs.1, hc.pb2, .inl hc.pb1⟩, by dsimp only; omega, fun _ => by dsimp only; omega⟩
    · obtain ⟨q1, q2⟩ := hc.push E ha
      refine (q1.getToken E).bind ?_
      rintro ⟨k2, p2⟩ ⟨hc2, ha2, hl2⟩
      dsimp only at hc2 ha2 hl2 ⊢
      split
      · exact .throwStd
      next hk =>
      have hk : k2 = .MapStart := by simpa using hk
      subst hk
      have e := hc2.lft E
      have := E.mapStart
      refine (sinfo_ends E hnum hx H t hS _ _ 0 [] none none st p2 rfl (by simp) hc2.loose (Nat.lt_succ_self _) (by omega)).bind ?_
      rintro ⟨⟨name, data, st'⟩, p3⟩ ⟨h1, h2, h3⟩
      dsimp only at h1 h2 h3 ⊢
      exact (getShared_safe t h3 data st').bind fun r _ => .ok ⟨h1, by dsimp only; omega, fun _ => by dsimp only; omega⟩

theorem sdeser_ends (E : Halts o num nul L I A m w cfg.strict) (hnum : num = true) (hx : cfg.strict = .Exact) (hT : SSoundTypes S num nul) :
    ∀ n, SBelow o num nul L I A m w S cfg n
  | 0 => fun _ _ _ _ _ _ h => absurd h (Nat.not_lt_zero _)
  | n + 1 => sdeser_step E hnum hx hT (sdeser_ends E hnum hx hT n)

/-- A whole document, if the start of the document leaves the parser in its invariant. -/
theorem simport_ends (E : Halts o num nul L I A m w cfg.strict) (hnum : num = true) (hx : cfg.strict = .Exact) (hT : SSoundTypes S num nul) (t : STy)
    (hS : SSound S.env num nul t) (p : PI σ) (P : Pos) (hp : Safe (fun x => x.1 = .DocStart → EClean I P x.2) (p.getToken o)) : simportValue o S cfg t p ≠ .ub := by
  suffices h : Safe (fun _ => True) (simportValue o S cfg t p) from h.ne_ub
  unfold simportValue
  refine hp.bind ?_
  rintro ⟨k, p⟩ hk
  dsimp only at hk ⊢
  split
  · exact .throwStd
  · next h =>
    have hp := hk (by simpa using h)
    refine (sdeser_ends E hnum hx hT _ t ⟨[], []⟩ P p hS hp.pre (Nat.lt_succ_self _)).bind ?_
    rintro ⟨v, p⟩ ⟨h1, -, -⟩
    dsimp only at h1 ⊢
    refine ((h1.pre E).getToken E).bind ?_
    rintro ⟨k, p⟩ -
    dsimp only
    split
    · exact .throwStd
    · exact .ok trivial

end
end Thors
