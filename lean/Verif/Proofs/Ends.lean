import Verif.Spec.Ends
import Verif.Model.Deser
import Verif.Model.Yaml
import Verif.Proofs.Watch
/-
An import comes to an end without undefined behaviour: the format independent part.
-/
namespace Thors
open Spec StrIn

/-- The run ends without undefined behaviour, and what it returns satisfies `P`. -/
def Safe {α : Type} (P : α → Prop) : Res α → Prop
  | .ok a => P a
  | .throw _ => True
  | .ub => False

theorem Yields.and {α : Type} {P P' : α → Prop} {r : Res α} (h : Yields P r) (h2 : Yields P' r) : Yields (fun x => P x ∧ P' x) r :=
  fun x e => ⟨h x e, h2 x e⟩

namespace Safe
variable {α β : Type} {P : α → Prop} {Q : β → Prop}

theorem ok {a : α} (h : P a) : Safe P (.ok a) := h
theorem throwStd : Safe P throwStd := trivial
theorem bind {r : Res α} {f : α → Res β} (h : Safe P r) (h2 : ∀ a, P a → Safe Q (f a)) : Safe Q (r >>= f) := by
  cases r with
  | ok a => exact h2 a h
  | throw e => exact trivial
  | ub => exact h
theorem mono {P' : α → Prop} {r : Res α} (h : Safe P r) (h2 : ∀ a, P a → P' a) : Safe P' r := by
  cases r with
  | ok a => exact h2 a h
  | throw e => exact trivial
  | ub => exact h
theorem ne_ub {r : Res α} (h : Safe P r) : r ≠ .ub := by
  rintro rfl; exact h
theorem of {r : Res α} (h : Yields P r) (h2 : r ≠ .ub) : Safe P r := by
  cases r with
  | ok a => exact h a rfl
  | throw e => exact trivial
  | ub => exact h2 rfl
theorem yields {r : Res α} (h : Safe P r) : Yields P r := by
  rintro x rfl; exact h
theorem and {P' : α → Prop} {r : Res α} (h : Safe P r) (h2 : Yields P' r) : Safe (fun x => P x ∧ P' x) r := by
  cases r with
  | ok a => exact ⟨h, h2 a rfl⟩
  | throw e => exact trivial
  | ub => exact h
end Safe

/-- Where in a document: the open containers, the innermost first, each with the number of keys and values so far. -/
abbrev Pos := List (YState × Nat)

/-- One more key or value. -/
def Pos.bump : Pos → Pos
  | (k, n) :: st => (k, n + 1) :: st
  | [] => []

/-- In front of a key, or at the end of a map. -/
def KeyPos (P : Pos) : Prop := ∃ n Q, P = (.Map, n) :: Q ∧ n % 2 = 0

/-- The position behind a token. -/
def Pos.after (P : Pos) : Tok → Pos
  | .Key => P.bump
  | .Value => P.bump
  | .DocStart => P.bump
  | .MapStart => (.Map, 0) :: P.bump
  | .ArrayStart => (.Array, 0) :: P.bump
  | .MapEnd => P.tail
  | .ArrayEnd => P.tail
  | .DocEnd => P
  | .Error => P

/-- Nothing but errors from here on. -/
def Dead {σ : Type} (o : POps σ) (s : σ) : Prop := o.next s = .ok (.Error, s) ∧ o.isNull s = false

/-- The token `t` was just given; with `L` it can also be a start of a map that was pushed back. -/
def Was {σ : Type} (L : Bool) (A : Pos → Tok → σ → Prop) (P : Pos) (t : Tok) (s : σ) : Prop := (L = true ∧ t = .MapStart) ∨ A P t s

/-- A concrete parser with an invariant `I` whose functions end without undefined behaviour, and a measure `m` of what is left
of the document. `A P t`: the token `t` was just given at the position `P`; `w t`: what a token takes from the document by itself.
`st`: the mode; `num`: numbers can be read; `nul`: `null` takes something from the document; `L`: the parser does not know the position. -/
structure Halts {σ : Type} (o : POps σ) (num nul L : Bool) (I : Pos → σ → Prop) (A : Pos → Tok → σ → Prop) (m : σ → Nat) (w : Tok → Nat)
    (st : ParseType) : Prop where
  error : w .Error = 0
  mapStart : 0 < w .MapStart
  arrayStart : 0 < w .ArrayStart
  loose : L = true → ∀ P Q s, I P s → I Q s
  keyTok : L = false → ∀ P t s, KeyPos P → A P t s → t = .Key ∨ t = .MapEnd ∨ t = .Error
  next : ∀ P s, I P s → Safe (fun x => I (P.after x.1) x.2 ∧ A P x.1 x.2 ∧ m x.2 + w x.1 ≤ m s) (o.next s)
  getKey : ∀ P t s, KeyPos P → I (P.after t) s → t ≠ .MapEnd → Was L A P t s →
    Safe (fun x => I P.bump x.2 ∧ (m x.2 < m s + w t ∨ Dead o x.2)) (o.getKey s)
  getInt : num = true → ∀ k P s, I P.bump s → A P .Value s → Safe (fun x => I P.bump x.2 ∧ m x.2 < m s + w .Value) (o.getInt k s)
  getFlt : num = true → ∀ f P s, I P.bump s → A P .Value s → Safe (fun x => I P.bump x.2 ∧ m x.2 < m s + w .Value) (o.getFlt f s)
  getBool : ∀ P s, I P.bump s → A P .Value s → Safe (fun x => I P.bump x.2 ∧ m x.2 < m s + w .Value) (o.getBool s)
  getStr : ∀ P s, I P.bump s → A P .Value s → Safe (fun x => I P.bump x.2 ∧ m x.2 < m s + w .Value) (o.getStr s)
  null : ∀ P t s, I (P.after t) s → Was L A P t s → o.isNull s = true →
    Safe (fun s' => I P.bump s' ∧ m s' ≤ m s + w t ∧ (nul = true ∨ t = .Value → m s' < m s + w t)) (o.ignoreData s)
  skip : st = .Weak → ∀ P t s, I (P.after t) s → A P t s → t ≠ .MapEnd →
    Safe (fun s' => t = .Key ∨ t = .Value → I P.bump s' ∧ m s' < m s + w t) (o.ignoreData s)

section
variable {σ : Type} {o : POps σ} {num nul L : Bool} {I : Pos → σ → Prop} {A : Pos → Tok → σ → Prop} {m : σ → Nat} {w : Tok → Nat} {st : ParseType}

theorem keyPos_even {c : Nat} {Q : Pos} (h : c % 2 = 0) : KeyPos ((.Map, c) :: Q) := ⟨c, Q, rfl, h⟩

/-! ### skipping -/

theorem ignore_ends (E : Halts o num nul L I A m w st) (hw : st = .Weak) : ∀ n : Nat,
    (∀ P s, I P s → m s < n → Safe (fun s' => I P.bump s' ∧ m s' < m s) (ignoreTheValue o s)) ∧
    (∀ c Q s, I ((.Array, c) :: Q) s → m s < n → Safe (fun s' => I Q s' ∧ m s' ≤ m s) (ignoreTheArray o s)) ∧
    (∀ c Q s, c % 2 = 0 → I ((.Map, c) :: Q) s → m s < n → Safe (fun s' => I Q s' ∧ m s' ≤ m s) (ignoreTheMap o s))
  | 0 => ⟨fun _ _ _ h => absurd h (Nat.not_lt_zero _), fun _ _ _ _ h => absurd h (Nat.not_lt_zero _), fun _ _ _ _ _ h => absurd h (Nat.not_lt_zero _)⟩
  | n + 1 => by
    obtain ⟨hv, ha, hm⟩ := ignore_ends E hw n
    have e1 := E.mapStart
    have e2 := E.arrayStart
    refine ⟨?_, ?_, ?_⟩
    · intro P s hs hn
      rw [ignoreTheValue]
      refine (E.next P s hs).bind ?_
      rintro ⟨t, s1⟩ ⟨h1, h2, h3⟩
      dsimp only at h1 h2 h3 ⊢
      cases t <;> try exact .throwStd
      · exact (hm 0 _ s1 rfl h1 (by omega)).mono fun s2 h => ⟨h.1, by omega⟩
      · exact (ha 0 _ s1 h1 (by omega)).mono fun s2 h => ⟨h.1, by omega⟩
      · exact (E.skip hw _ _ s1 h1 h2 (by simp)).mono fun s2 h => ⟨(h (.inr rfl)).1, by have := (h (.inr rfl)).2; omega⟩
    · intro c Q s hs hn
      rw [ignoreTheArray]
      refine (E.next _ s hs).bind ?_
      rintro ⟨t, s1⟩ ⟨h1, h2, h3⟩
      dsimp only at h1 h2 h3 ⊢
      cases t <;> try exact .throwStd
      · refine (hm 0 _ s1 rfl h1 (by omega)).bind fun s2 h => ?_
        exact (ha (c + 1) Q s2 h.1 (by omega)).mono fun s3 h' => ⟨h'.1, by omega⟩
      · refine (ha 0 _ s1 h1 (by omega)).bind fun s2 h => ?_
        exact (ha (c + 1) Q s2 h.1 (by omega)).mono fun s3 h' => ⟨h'.1, by omega⟩
      · exact .ok ⟨h1, by omega⟩
      · refine (E.skip hw _ _ s1 h1 h2 (by simp)).bind fun s2 h => ?_
        have := h (.inr rfl)
        exact (ha (c + 1) Q s2 this.1 (by omega)).mono fun s3 h' => ⟨h'.1, by omega⟩
    · intro c Q s hc hs hn
      rw [ignoreTheMap]
      refine (E.next _ s hs).bind ?_
      rintro ⟨t, s1⟩ ⟨h1, h2, h3⟩
      dsimp only at h1 h2 h3 ⊢
      split
      · next ht => subst ht; exact .ok ⟨h1, by omega⟩
      · next ht =>
        refine (E.skip hw _ t s1 h1 h2 ht).bind fun s2 h => ?_
        split
        · exact .throwStd
        · next hk =>
          have := h (.inl (by simpa using hk))
          refine (hv _ s2 this.1 (by omega)).bind fun s3 h' => ?_
          exact (hm (c + 2) Q s3 (by omega) h'.1 (by omega)).mono fun s4 h'' => ⟨h''.1, by omega⟩

/-- In front of a key there is no value to skip. -/
theorem ignore_key (E : Halts o num nul L I A m w st) (hL : L = false) {P : Pos} (hP : KeyPos P) {s : σ} (hs : I P s) : Safe (fun _ => False) (ignoreTheValue o s) := by
  rw [ignoreTheValue]
  refine (E.next P s hs).bind ?_
  rintro ⟨t, s1⟩ ⟨h1, h2, h3⟩
  dsimp only at h1 h2 h3 ⊢
  rcases E.keyTok hL P t s1 hP h2 with rfl | rfl | rfl <;> exact .throwStd

theorem ignore_dead {s : σ} (h : Dead o s) : Safe (fun _ => False) (ignoreTheValue o s) := by
  rw [ignoreTheValue, h.1]
  exact .throwStd

theorem Safe.absurd {α : Type} {P : α → Prop} {r : Res α} (h : Safe (fun _ => False) r) : Safe P r := h.mono fun _ => False.elim

/-! ### tokens -/

/-- What is left of the document, the token that was pushed back included. -/
def left (m : σ → Nat) (w : Tok → Nat) (p : PI σ) : Nat := m p.inner + w p.pb1

/-- At most one token is pushed back, the one that was just given. -/
structure EPre (L : Bool) (I : Pos → σ → Prop) (A : Pos → Tok → σ → Prop) (P : Pos) (p : PI σ) : Prop where
  pb2 : p.pb2 = .Error
  none : p.pb1 = .Error → I P p.inner
  tok : p.pb1 ≠ .Error → I (P.after p.pb1) p.inner ∧ Was L A P p.pb1 p.inner

/-- Nothing is pushed back, or with `L` the start of a map. -/
structure ELoose (L : Bool) (I : Pos → σ → Prop) (P : Pos) (p : PI σ) : Prop where
  inner : I P p.inner
  pb2 : p.pb2 = .Error
  tok : p.pb1 = .Error ∨ (L = true ∧ p.pb1 = .MapStart)

/-- Nothing is pushed back. -/
structure EClean (I : Pos → σ → Prop) (P : Pos) (p : PI σ) : Prop where
  inner : I P p.inner
  pb1 : p.pb1 = .Error
  pb2 : p.pb2 = .Error

/-- Behind the name of the class of a polymorphic object, the start of the map is pushed back. -/
structure EPoly (I : Pos → σ → Prop) (P : Pos) (p : PI σ) : Prop where
  inner : I ((.Map, 2) :: P.bump) p.inner
  pb1 : p.pb1 = .MapStart
  pb2 : p.pb2 = .Error

theorem ELoose.pre (E : Halts o num nul L I A m w st) {P : Pos} {p : PI σ} (h : ELoose L I P p) : EPre L I A P p :=
  ⟨h.pb2, fun _ => h.inner, fun h1 => by
    rcases h.tok with e | ⟨e1, e2⟩
    · exact absurd e h1
    · exact ⟨E.loose e1 _ _ _ h.inner, .inl ⟨e1, e2⟩⟩⟩

theorem EClean.loose {P : Pos} {p : PI σ} (h : EClean I P p) : ELoose L I P p := ⟨h.inner, h.pb2, .inl h.pb1⟩

theorem EClean.pre {P : Pos} {p : PI σ} (h : EClean I P p) : EPre L I A P p :=
  ⟨h.pb2, fun _ => h.inner, fun h1 => absurd h.pb1 h1⟩

theorem EClean.lft (E : Halts o num nul L I A m w st) {P : Pos} {p : PI σ} (h : EClean I P p) : left m w p = m p.inner := by
  unfold left; rw [h.pb1, E.error]; rfl

theorem EPre.getToken (E : Halts o num nul L I A m w st) {P : Pos} {p : PI σ} (h : EPre L I A P p) :
    Safe (fun x => EClean I (P.after x.1) x.2 ∧ Was L A P x.1 x.2.inner ∧ m x.2.inner + w x.1 ≤ left m w p) (p.getToken o) := by
  unfold PI.getToken
  rw [if_neg (by simp [h.pb2])]
  split
  · next h1 => exact .ok ⟨⟨(h.tok h1).1, rfl, h.pb2⟩, (h.tok h1).2, Nat.le_refl _⟩
  · next h1 =>
    have h1 : p.pb1 = .Error := by simpa using h1
    refine (E.next P _ (h.none h1)).bind fun x hx => .ok ⟨⟨hx.1, h1, h.pb2⟩, .inr hx.2.1, ?_⟩
    have := hx.2.2
    unfold left
    dsimp only
    omega

theorem EPoly.getToken {P : Pos} {p : PI σ} (h : EPoly I P p) :
    Safe (fun x => x.1 = .MapStart ∧ EClean I ((.Map, 2) :: P.bump) x.2 ∧ m x.2.inner + w .MapStart ≤ left m w p) (p.getToken o) := by
  unfold PI.getToken
  rw [if_neg (by simp [h.pb2]), if_pos (by simp [h.pb1])]
  refine .ok ⟨h.pb1, ⟨h.inner, rfl, h.pb2⟩, ?_⟩
  unfold left
  rw [h.pb1]
  exact Nat.le_refl _

theorem EClean.push (E : Halts o num nul L I A m w st) {P : Pos} {p : PI σ} {k : Tok} (h : EClean I (P.after k) p) (ht : Was L A P k p.inner) :
    EPre L I A P (p.pushBackToken k) ∧ left m w (p.pushBackToken k) = m p.inner + w k := by
  unfold PI.pushBackToken
  rw [if_pos h.pb1]
  refine ⟨⟨h.pb2, fun e => ?_, fun _ => ⟨h.inner, ht⟩⟩, rfl⟩
  dsimp only at e
  subst e
  exact h.inner

theorem EClean.lift {α : Type} {P Q : Pos} {p : PI σ} {r : Res (α × σ)} {n : Nat} (h : EClean I P p) (hr : Safe (fun x => I Q x.2 ∧ m x.2 < n) r) :
    Safe (fun x => EClean I Q x.2 ∧ m x.2.inner < n) (p.lift r) :=
  hr.bind fun _ hx => .ok ⟨⟨hx.1, h.pb1, h.pb2⟩, hx.2⟩

theorem EClean.liftKey {α : Type} {P Q : Pos} {p : PI σ} {r : Res (α × σ)} {n : Nat} (h : EClean I P p)
    (hr : Safe (fun x => I Q x.2 ∧ (m x.2 < n ∨ Dead o x.2)) r) : Safe (fun x => EClean I Q x.2 ∧ (m x.2.inner < n ∨ Dead o x.2.inner)) (p.lift r) :=
  hr.bind fun _ hx => .ok ⟨⟨hx.1, h.pb1, h.pb2⟩, hx.2⟩

theorem ELoose.ignore (E : Halts o num nul L I A m w st) {P : Pos} {p : PI σ} (h : ELoose L I P p) :
    Safe (fun p' => ELoose L I P.bump p' ∧ left m w p' < left m w p) (p.ignoreValue o st) := by
  unfold PI.ignoreValue
  split
  · exact .throwStd
  · next hw =>
    refine ((ignore_ends E (by simpa using hw) (m p.inner + 1)).1 P _ h.inner (by omega)).bind fun s hs => .ok ⟨⟨hs.1, h.pb2, h.tok⟩, ?_⟩
    unfold left
    have := hs.2
    dsimp only
    omega

theorem EPre.polyName (E : Halts o num nul L I A m w st) (mk : Bytes) {P : Pos} {p : PI σ} (h : EPre L I A P p) :
    Safe (fun x => EPoly I P x.2 ∧ left m w x.2 < left m w p) (polyClassName o mk p) := by
  unfold polyClassName
  refine (h.getToken E).bind ?_
  rintro ⟨t, p1⟩ ⟨hc, ha, hn⟩
  dsimp only at hc ha hn ⊢
  split
  · exact .throwStd
  next ht =>
  have ht : t = .MapStart := by simpa using ht
  subst ht
  refine ((hc.pre).getToken E).bind ?_
  rintro ⟨t, p2⟩ ⟨hc2, ha2, hn2⟩
  dsimp only at hc2 ha2 hn2 ⊢
  rw [hc.lft E] at hn2
  split
  · exact .throwStd
  next ht =>
  have ht : t = .Key := by simpa using ht
  subst ht
  refine (hc2.liftKey (E.getKey _ .Key _ (keyPos_even rfl) hc2.inner (by simp) ha2)).bind ?_
  rintro ⟨key, p3⟩ ⟨hc3, hn3⟩
  dsimp only at hc3 hn3 ⊢
  split
  · exact .throwStd
  rcases hn3 with hn3 | hdead
  · refine ((hc3.pre).getToken E).bind ?_
    rintro ⟨t, p4⟩ ⟨hc4, ha4, hn4⟩
    dsimp only at hc4 ha4 hn4 ⊢
    rw [hc3.lft E] at hn4
    split
    · exact .throwStd
    next ht =>
    have ht : t = .Value := by simpa using ht
    subst ht
    refine (hc4.lift (E.getStr ((.Map, 1) :: P.bump) _ hc4.inner (ha4.resolve_left (by simp)))).bind ?_
    rintro ⟨name, p5⟩ ⟨hc5, hn5⟩
    dsimp only at hc5 hn5 ⊢
    refine .ok ?_
    dsimp only
    unfold PI.pushBackToken
    rw [if_pos hc5.pb1]
    refine ⟨⟨hc5.inner, rfl, hc5.pb2⟩, ?_⟩
    have : left m w { p5 with pb1 := .MapStart } = m p5.inner + w .MapStart := rfl
    omega
  · unfold PI.getToken
    rw [if_neg (by simp [hc3.pb2]), if_neg (by simp [hc3.pb1]), hdead.1]
    exact .throwStd


/-- Nothing can be read where there are only errors. -/
theorem dead_deser (env : Env) (cfg : Cfg) : ∀ (ty : Ty) (old : Val) (p : PI σ), Dead o p.inner → p.pb1 = .Error → p.pb2 = .Error →
    Safe (fun _ => False) (deser o env cfg ty old p) := by
  have hg : ∀ p : PI σ, Dead o p.inner → p.pb1 = .Error → p.pb2 = .Error → p.getToken o = .ok (.Error, p) := by
    intro p h h1 h2
    unfold PI.getToken
    rw [if_neg (by simp [h2]), if_neg (by simp [h1]), h.1]
    rfl
  have hpush : ∀ p : PI σ, p.pb1 = .Error → p.pushBackToken .Error = p := by
    intro p h1
    unfold PI.pushBackToken
    rw [if_pos h1]
    cases p
    dsimp only at h1
    rw [h1]
  have hpoly : ∀ (p : PI σ) (mk : Bytes), Dead o p.inner → p.pb1 = .Error → p.pb2 = .Error → polyClassName o mk p = throwStd := by
    intro p mk h h1 h2
    unfold polyClassName
    rw [hg p h h1 h2]
    rfl
  have hcls : ∀ (p : PI σ) (d : StructDef) (old : Val), Dead o p.inner → p.pb1 = .Error → p.pb2 = .Error → deserClass o env cfg d old p = throwStd := by
    intro p d old h h1 h2
    rw [deserClass, hg p h h1 h2]
    rfl
  intro ty
  induction ty with
  | opt t ih =>
    intro old p h h1 h2
    rw [deser]
    exact (ih _ p h h1 h2).bind fun _ hf => hf.elim
  | uptr t ih =>
    intro old p h h1 h2
    rw [deser, hg p h h1 h2]
    simp only [Res.ok_bind]
    rw [if_neg (by simp [h.2]), hpush p h1]
    exact (ih _ p h h1 h2).bind fun _ hf => hf.elim
  | pptr b =>
    intro old p h h1 h2
    rw [deser, hg p h h1 h2]
    simp only [Res.ok_bind]
    rw [if_neg (by simp [h.2]), hpush p h1, hpoly p _ h h1 h2]
    exact .throwStd
  | named i =>
    intro old p h h1 h2
    rw [deser]
    cases env.defs i with
    | cls d => dsimp only; rw [hcls p _ _ h h1 h2]; exact .throwStd
    | tuple ts => dsimp only; rw [hg p h h1 h2]; exact .throwStd
    | enum table => dsimp only; rw [hg p h h1 h2]; exact .throwStd
    | variant alts => dsimp only; rw [hpoly p _ h h1 h2]; exact .throwStd
  | _ =>
    intro old p h h1 h2
    rw [deser, hg p h h1 h2]
    exact .throwStd

/-! ### objects -/

section
variable {env : Env}

/-- An object of class type. -/
def ShapedCls (env : Env) : StructDef → Val → Prop
  | .mk dps ms _, .obj ps fs => ShapedOwn env ms fs ∧ ShapedParents env dps ps
  | _, _ => False

theorem shaped_cls {i : Nat} {d : ClassDef} (h : env.defs i = .cls d) (v : Val) : Shaped env (.named i) v ↔ ShapedCls env d.traits v := by
  obtain ⟨⟨dps, ms, f⟩, n, tf⟩ := d
  cases v <;> simp [Shaped, ShapedCls, h]

theorem shaped_other {i : Nat} (h : ∀ d, env.defs i ≠ .cls d) (v : Val) : Shaped env (.named i) v := by
  cases hd : env.defs i with
  | cls d => exact absurd hd (h d)
  | _ => cases v <;> simp [Shaped, hd]

theorem shapedParents_cons {d : StructDef} {ds : List StructDef} {vs : List Val} (h : ShapedParents env (d :: ds) vs) :
    ∃ v vs', vs = v :: vs' ∧ ShapedCls env d v ∧ ShapedParents env ds vs' := by
  obtain ⟨dps, ms, f⟩ := d
  cases vs with
  | nil => simp [ShapedParents] at h
  | cons v vs' =>
    cases v <;> simp only [ShapedParents] at h
    exact ⟨_, _, rfl, ⟨h.1, h.2.1⟩, h.2.2⟩

theorem shapedParents_mk {d : StructDef} {ds : List StructDef} {v : Val} {vs : List Val} (h1 : ShapedCls env d v) (h2 : ShapedParents env ds vs) :
    ShapedParents env (d :: ds) (v :: vs) := by
  obtain ⟨dps, ms, f⟩ := d
  cases v <;> simp only [ShapedCls] at h1
  exact ⟨h1.1, h1.2, h2⟩

/-- The place a key leads to. -/
structure SlotOk (env : Env) (num nul : Bool) (t : Ty) (get : Option Val) (set : Val → Prop) : Prop where
  ty : Sound env num nul t
  ok : ∃ x, get = some x ∧ Shaped env t x ∧ ∀ y, Shaped env t y → set y

theorem findMember_shaped {num nul : Bool} {key : Bytes} : ∀ (ms : List Member) (fs : List Val) (j : Nat) (slot : StructDef.Slot),
    (∀ mb ∈ ms, Sound env num nul mb.ty) → ShapedOwn env ms fs → StructDef.findMember key ms j = some slot →
    ∃ i, slot.path = [] ∧ slot.index = j + i ∧ SlotOk env num nul slot.ty fs[i]? (fun y => ShapedOwn env ms (fs.set i y))
  | [], _, _, _, _, _, h => by simp [StructDef.findMember] at h
  | mb :: ms, [], _, _, _, hs, _ => by simp [ShapedOwn] at hs
  | mb :: ms, f :: fs, j, slot, hm, hs, h => by
    simp only [ShapedOwn] at hs
    unfold StructDef.findMember at h
    split at h
    · injection h with h
      subst h
      exact ⟨0, rfl, rfl, hm mb (by simp), f, rfl, hs.1, fun y hy => by simp only [List.set_cons_zero, ShapedOwn]; exact ⟨hy, hs.2⟩⟩
    · obtain ⟨i, h1, h2, h3, x, h4, h5, h6⟩ := findMember_shaped ms fs (j + 1) slot (fun mb' h' => hm mb' (by simp [h'])) hs.2 h
      refine ⟨i + 1, h1, by omega, h3, x, by simpa using h4, h5, fun y hy => ?_⟩
      simp only [List.set_cons_succ, ShapedOwn]
      exact ⟨hs.1, h6 y hy⟩

mutual
theorem find_shaped {num nul : Bool} {key : Bytes} : ∀ (d : StructDef) (v : Val) (slot : StructDef.Slot), SoundStruct env num nul d → ShapedCls env d v →
    d.find key = some slot → SlotOk env num nul slot.ty (v.field slot.path slot.index) (fun y => ShapedCls env d (v.setField slot.path slot.index y))
  | .mk dps ms f, v, slot, hd, hs, h => by
    cases v <;> simp only [ShapedCls] at hs
    rename_i ps fs
    unfold StructDef.find at h
    unfold SoundStruct at hd
    split at h
    · next s hp =>
      injection h with h
      subst h
      obtain ⟨i, rest, h1, h2, x, h3, h4, h5⟩ := findParents_shaped dps ps 0 s hd.2 hs.2 hp
      obtain ⟨pa, ix, ty⟩ := s
      dsimp only at h1 h2 h3 h4 h5 ⊢
      subst h1
      simp only [Nat.zero_add, Val.field, Val.setField, ShapedCls]
      cases hpi : ps[i]? with
      | none => simp [hpi] at h3
      | some q =>
        simp only [hpi] at h3 h5 ⊢
        exact ⟨h2, x, h3, h4, fun y hy => ⟨hs.1, h5 y hy⟩⟩
    · obtain ⟨i, h1, h2, h3, x, h4, h5, h6⟩ := findMember_shaped ms fs 0 slot hd.1 hs.1 h
      rw [h1, h2]
      simp only [Nat.zero_add, Val.field, Val.setField, ShapedCls]
      exact ⟨h3, x, h4, h5, fun y hy => ⟨h6 y hy, hs.2⟩⟩
theorem findParents_shaped {num nul : Bool} {key : Bytes} : ∀ (ds : List StructDef) (vs : List Val) (j : Nat) (slot : StructDef.Slot),
    SoundStruct.SoundParents env num nul ds → ShapedParents env ds vs → StructDef.find.findInParents key ds j = some slot →
    ∃ i rest, slot.path = (j + i) :: rest ∧ SlotOk env num nul slot.ty (match vs[i]? with | .some v => v.field rest slot.index | .none => .none)
      (fun y => ShapedParents env ds (match vs[i]? with | .some v => vs.set i (v.setField rest slot.index y) | .none => vs))
  | [], _, _, _, _, _, h => by simp [StructDef.find.findInParents] at h
  | d :: ds, vs, j, slot, hd, hs, h => by
    obtain ⟨v, vs', rfl, hs1, hs2⟩ := shapedParents_cons hs
    unfold SoundStruct.SoundParents at hd
    unfold StructDef.find.findInParents at h
    split at h
    · next s hf =>
      injection h with h
      subst h
      obtain ⟨h3, x, h4, h5, h6⟩ := find_shaped d v s hd.1 hs1 hf
      refine ⟨0, s.path, rfl, h3, x, by simpa using h4, h5, fun y hy => ?_⟩
      simp only [List.getElem?_cons_zero, List.set_cons_zero]
      exact shapedParents_mk (h6 y hy) hs2
    · obtain ⟨i, rest, h1, h2, x, h3, h4, h5⟩ := findParents_shaped ds vs' (j + 1) slot hd.2 hs2 h
      refine ⟨i + 1, rest, by rw [h1]; congr 1; omega, h2, x, by simpa using h3, h4, fun y hy => ?_⟩
      have := h5 y hy
      simp only [List.getElem?_cons_succ, List.set_cons_succ]
      cases hq : vs'[i]? with
      | none => simp only [hq] at this ⊢; exact shapedParents_mk hs1 this
      | some q => simp only [hq] at this ⊢; exact shapedParents_mk hs1 this
end

theorem dictGet_shaped {t : Ty} {key : Bytes} : ∀ (kvs : List (Bytes × Val)) (v : Val), ShapedDict env t kvs → dictGet key kvs = some v → Shaped env t v
  | [], _, _, h => by simp [dictGet] at h
  | (k, x) :: kvs, v, hs, h => by
    simp only [ShapedDict] at hs
    unfold dictGet at h
    split at h
    · injection h with h; subst h; exact hs.1
    · exact dictGet_shaped kvs v hs.2 h

theorem dictSet_shaped {t : Ty} {key : Bytes} {v : Val} (hv : Shaped env t v) : ∀ (kvs : List (Bytes × Val)), ShapedDict env t kvs → ShapedDict env t (dictSet key v kvs)
  | [], _ => by simp only [dictSet, ShapedDict]; exact ⟨hv, trivial⟩
  | (k, x) :: kvs, hs => by
    simp only [ShapedDict] at hs
    unfold dictSet
    split
    · exact ⟨hv, hs.2⟩
    · split
      · exact ⟨hv, hs.1, hs.2⟩
      · exact ⟨hs.1, dictSet_shaped hv kvs hs.2⟩

theorem default_shaped {num nul : Bool} (hT : SoundTypes env num nul) (t : Ty) (h : Sound env num nul t) : Shaped env t (t.default env) := by
  cases t with
  | named i => exact hT.dflt i
  | arr n t => exact absurd h (by simp [Sound])
  | _ => simp [Ty.default, Shaped, ShapedDict]

end


/-! ### the deserialiser -/

/-- What is expected of reading a value: the end, no undefined behaviour, an object of the type, and that something was read unless
`null` can stand for the value. -/
def EPost (nul L : Bool) (env : Env) (I : Pos → σ → Prop) (m : σ → Nat) (w : Tok → Nat) (P : Pos) (ty : Ty) (n : Nat) (x : Val × PI σ) : Prop :=
  ELoose L I P.bump x.2 ∧ Shaped env ty x.1 ∧ left m w x.2 ≤ n ∧ (nul = true ∨ nullable ty = false → left m w x.2 < n)

/-- Reading into an object of class type. -/
def EPostC (L : Bool) (env : Env) (I : Pos → σ → Prop) (m : σ → Nat) (w : Tok → Nat) (Q : Pos) (d : StructDef) (n : Nat) (x : Val × PI σ) : Prop :=
  ELoose L I Q x.2 ∧ ShapedCls env d x.1 ∧ left m w x.2 ≤ n

section
variable {env : Env} {cfg : Cfg}

/-- Values can be read if less than `n` is left. -/
def DesBelow (o : POps σ) (num nul L : Bool) (I : Pos → σ → Prop) (A : Pos → Tok → σ → Prop) (m : σ → Nat) (w : Tok → Nat) (env : Env) (cfg : Cfg) (n : Nat) : Prop :=
  ∀ ty old P p, Sound env num nul ty → Shaped env ty old → EPre L I A P p → left m w p < n →
    Safe (EPost nul L env I m w P ty (left m w p)) (deser o env cfg ty old p)

theorem vec_ends (E : Halts o num nul L I A m w cfg.strict) (hT : SoundTypes env num nul) {n : Nat} (H : DesBelow o num nul L I A m w env cfg n) (c : SeqKind) (t : Ty)
    (ht : Sound env num nul t) (hn : nul = true ∨ nullable t = false) (Q : Pos) : ∀ (j i : Nat) (vs : List Val) (p : PI σ), ELoose L I ((.Array, i) :: Q) p →
      left m w p < j → left m w p < n →
      Safe (fun x => ELoose L I Q x.2 ∧ (∃ vs, x.1 = .list vs) ∧ left m w x.2 ≤ left m w p) (deserVec o env cfg c t vs p)
  | 0, _, _, _, _, h, _ => absurd h (Nat.not_lt_zero _)
  | j + 1, i, vs, p, hp, hj, hpn => by
    rw [deserVec]
    refine ((hp.pre E).getToken E).bind ?_
    rintro ⟨k, p1⟩ ⟨hc, ha, hl⟩
    dsimp only at hc ha hl ⊢
    split
    · next hk => subst hk; exact .ok ⟨hc.loose, ⟨_, rfl⟩, by rw [hc.lft E]; omega⟩
    · obtain ⟨q1, q2⟩ := hc.push E ha
      refine (H t (t.default env) _ (p1.pushBackToken k) ht (default_shaped hT t ht) q1 (by omega)).bind ?_
      rintro ⟨v, p2⟩ ⟨r1, r2, r3, r4⟩
      have r4 := r4 hn
      dsimp only at r1 r2 r3 r4 ⊢
      exact (vec_ends E hT H c t ht hn Q j (i + 1) _ p2 r1 (by omega) (by omega)).mono fun x hx => ⟨hx.1, hx.2.1, by have := hx.2.2; omega⟩

theorem dict_ends (E : Halts o num nul L I A m w cfg.strict) (hT : SoundTypes env num nul) {n : Nat} (H : DesBelow o num nul L I A m w env cfg n) (kind : DictKind) (t : Ty)
    (ht : Sound env num nul t) (Q : Pos) : ∀ (j i : Nat) (kvs : List (Bytes × Val)) (p : PI σ), i % 2 = 0 → (kind = .sorted → ShapedDict env t kvs) →
      ELoose L I ((.Map, i) :: Q) p → left m w p < j → left m w p < n →
      Safe (fun x => ELoose L I Q x.2 ∧ (∃ kvs, x.1 = .dict kvs ∧ (kind = .sorted → ShapedDict env t kvs)) ∧ left m w x.2 ≤ left m w p) (deserDict o env cfg kind t kvs p)
  | 0, _, _, _, _, _, _, h, _ => absurd h (Nat.not_lt_zero _)
  | j + 1, i, kvs, p, hi, hk, hp, hj, hpn => by
    rw [deserDict]
    refine ((hp.pre E).getToken E).bind ?_
    rintro ⟨k, p1⟩ ⟨hc, ha, hl⟩
    dsimp only at hc ha hl ⊢
    split
    · next hk' => subst hk'; exact .ok ⟨hc.loose, ⟨_, rfl, hk⟩, by rw [hc.lft E]; omega⟩
    · next hne =>
      refine (hc.liftKey (E.getKey _ k _ (keyPos_even hi) hc.inner hne ha)).bind ?_
      rintro ⟨key, p2⟩ ⟨hc2, hl2⟩
      dsimp only at hc2 hl2 ⊢
      rcases hl2 with hl2 | hdead
      · have e2 := hc2.lft E
        refine (H t _ _ p2 ht ?_ hc2.pre (by omega)).bind ?_
        · have hd := default_shaped hT t ht
          cases kind <;> try exact hd
          dsimp only
          cases hg : dictGet key kvs with
          | none => exact hd
          | some v => exact dictGet_shaped kvs v (hk rfl) hg
        · rintro ⟨v, p3⟩ ⟨r1, r2, r3, r4⟩
          dsimp only at r1 r2 r3 r4 ⊢
          refine (dict_ends E hT H kind t ht Q j (i + 2) _ p3 (by omega) ?_ r1 (by omega) (by omega)).mono fun x hx => ⟨hx.1, hx.2.1, by have := hx.2.2; omega⟩
          intro hks
          subst hks
          exact dictSet_shaped r2 _ (hk rfl)
      · exact (dead_deser env cfg t _ p2 hdead hc2.pb1 hc2.pb2).bind fun _ hf => hf.elim

theorem members_ends (E : Halts o num nul L I A m w cfg.strict) {n : Nat} (H : DesBelow o num nul L I A m w env cfg n) (d : StructDef)
    (hd : SoundStruct env num nul d) (Q : Pos) : ∀ (j i : Nat) (found : List Bytes) (old : Val) (p : PI σ), i % 2 = 0 → ShapedCls env d old →
      ELoose L I ((.Map, i) :: Q) p → left m w p < j →
      left m w p < n → Safe (EPostC L env I m w Q d (left m w p)) (deserMembers o env cfg d found old p)
  | 0, _, _, _, _, _, _, _, h, _ => absurd h (Nat.not_lt_zero _)
  | j + 1, i, found, old, p, hi, hs, hp, hj, hpn => by
    rw [deserMembers]
    refine ((hp.pre E).getToken E).bind ?_
    rintro ⟨k, p1⟩ ⟨hc, ha, hl⟩
    dsimp only at hc ha hl ⊢
    split
    · next hk =>
      subst hk
      split
      · exact .throwStd
      · exact .ok ⟨hc.loose, hs, by rw [hc.lft E]; omega⟩
    · next hne =>
      refine (hc.liftKey (E.getKey _ k _ (keyPos_even hi) hc.inner hne ha)).bind ?_
      rintro ⟨key, p2⟩ ⟨hc2, hl2⟩
      dsimp only at hc2 hl2 ⊢
      have e2 := hc2.lft E
      cases hf : d.find key with
      | none =>
        dsimp only
        rcases hl2 with hl2 | hdead
        · refine (hc2.loose.ignore E).bind fun p3 h3 => ?_
          refine (members_ends E H d hd Q j (i + 2) found old p3 (by omega) hs h3.1 (by omega) (by omega)).mono fun x hx => ⟨hx.1, hx.2.1, by have := hx.2.2; omega⟩
        · refine Safe.bind (P := fun _ => False) ?_ fun _ hf => hf.elim
          unfold PI.ignoreValue
          split
          · exact .throwStd
          · exact (ignore_dead hdead).bind fun _ hf => hf.elim
      | some slot =>
        dsimp only
        obtain ⟨s1, x, s2, s3, s4⟩ := find_shaped d old slot hd hs hf
        rw [s2]
        dsimp only
        rcases hl2 with hl2 | hdead
        · refine (H slot.ty x _ p2 s1 s3 hc2.pre (by omega)).bind ?_
          rintro ⟨v, p3⟩ ⟨r1, r2, r3, r4⟩
          dsimp only at r1 r2 r3 r4 ⊢
          refine (members_ends E H d hd Q j (i + 2) _ _ p3 (by omega) (s4 v r2) r1 (by omega) (by omega)).mono fun x hx => ⟨hx.1, hx.2.1, by have := hx.2.2; omega⟩
        · exact (dead_deser env cfg slot.ty _ p2 hdead hc2.pb1 hc2.pb2).bind fun _ hf => hf.elim

theorem class_ends (E : Halts o num nul L I A m w cfg.strict) {n : Nat} (H : DesBelow o num nul L I A m w env cfg n) (d : StructDef)
    (hd : SoundStruct env num nul d) (old : Val) (P : Pos) (p : PI σ) (hs : ShapedCls env d old) (hp : EPre L I A P p ∨ EPoly I P p) (hn : left m w p ≤ n) :
    Safe (fun x => ELoose L I P.bump x.2 ∧ ShapedCls env d x.1 ∧ left m w x.2 < left m w p) (deserClass o env cfg d old p) := by
  have hg : Safe (fun x => x.1 = .MapStart → ∃ i, i % 2 = 0 ∧ EClean I ((.Map, i) :: P.bump) x.2 ∧ m x.2.inner + w .MapStart ≤ left m w p) (p.getToken o) := by
    rcases hp with hp | hp
    · exact (hp.getToken E).mono fun x hx e => ⟨0, rfl, by have := hx.1; rw [e] at this; exact this, by have := hx.2.2; rw [e] at this; exact this⟩
    · exact (hp.getToken (m := m) (w := w)).mono fun x hx _ => ⟨2, rfl, hx.2⟩
  rw [deserClass]
  refine hg.bind ?_
  rintro ⟨k, p1⟩ hc
  dsimp only at hc ⊢
  split
  · exact .throwStd
  next hk =>
  obtain ⟨i, hi, hc, hl⟩ := hc (by simpa using hk)
  have e1 := hc.lft E
  have e2 := E.mapStart
  exact (members_ends E H d hd _ _ i [] old p1 hi hs hc.loose (Nat.lt_succ_self _) (by omega)).mono fun x hx => ⟨hx.1, hx.2.1, by have := hx.2.2; omega⟩

theorem pickAlt_mem {key name : Bytes} : ∀ (cs : List Nat) (c : Nat), pickAlt env cfg key name cs = some c → c ∈ cs
  | [], _, h => by simp [pickAlt] at h
  | x :: cs, c, h => by
    unfold pickAlt at h
    split at h
    · split at h
      · exact List.mem_cons_of_mem _ (pickAlt_mem cs c h)
      · injection h with h; subst h; simp
    · exact List.mem_cons_of_mem _ (pickAlt_mem cs c h)

theorem lookup_mem {name : Bytes} : ∀ (l : List (Bytes × Nat)) (c : Nat), l.lookup name = some c → ∃ n, (n, c) ∈ l
  | [], _, h => by simp at h
  | (k, x) :: l, c, h => by
    rw [List.lookup_cons] at h
    split at h
    · injection h with h; subst h; exact ⟨k, by simp⟩
    · obtain ⟨n, hn⟩ := lookup_mem l c h
      exact ⟨n, List.mem_cons_of_mem _ hn⟩

theorem scalar_ends (E : Halts o num nul L I A m w st) {α : Type} {ty : Ty} {P : Pos} {p : PI σ} (hp : EPre L I A P p) (get : σ → Res (α × σ)) (f : α → Res Val)
    (hg : ∀ s, I P.bump s → A P .Value s → Safe (fun x => I P.bump x.2 ∧ m x.2 < m s + w .Value) (get s))
    (hf : ∀ a, Safe (fun v => Shaped env ty v) (f a)) :
    Safe (EPost nul L env I m w P ty (left m w p)) (do
      let (t, p) ← p.getToken o
      if t ≠ .Value then throwStd else
      let (a, p) ← p.lift (get p.inner)
      let v ← f a
      return (v, p)) := by
  refine (hp.getToken E).bind ?_
  rintro ⟨k, p1⟩ ⟨hc, ha, hl⟩
  dsimp only at hc ha hl ⊢
  split
  · exact .throwStd
  next hk =>
  have hk : k = .Value := by simpa using hk
  subst hk
  refine (hc.lift (hg _ hc.inner (ha.resolve_left (by simp)))).bind ?_
  rintro ⟨a, p2⟩ ⟨hc2, hl2⟩
  dsimp only at hc2 hl2 ⊢
  refine (hf a).bind fun v hv => .ok ?_
  have e := hc2.lft E
  exact ⟨hc2.loose, hv, by dsimp only; omega, fun _ => by dsimp only; omega⟩

/-- The beginning of an array or a map. -/
theorem open_ends (E : Halts o num nul L I A m w st) {ty : Ty} {P : Pos} {p : PI σ} (hp : EPre L I A P p) {n : Nat} (hn : left m w p ≤ n) (tok : Tok) (ht : 0 < w tok)
    (f : PI σ → Res (Val × PI σ))
    (hf : ∀ p1, EClean I (P.after tok) p1 → left m w p1 < n → Safe (fun x => ELoose L I P.bump x.2 ∧ Shaped env ty x.1 ∧ left m w x.2 ≤ left m w p1) (f p1)) :
    Safe (EPost nul L env I m w P ty (left m w p)) (do
      let (k, p) ← p.getToken o
      if k ≠ tok then throwStd else f p) := by
  refine (hp.getToken E).bind ?_
  rintro ⟨k, p1⟩ ⟨hc, ha, hl⟩
  dsimp only at hc ha hl ⊢
  split
  · exact .throwStd
  next hk =>
  have hk : k = tok := by simpa using hk
  subst hk
  have e := hc.lft E
  refine (hf p1 hc (by omega)).mono fun x hx => ⟨hx.1, hx.2.1, ?_, fun _ => ?_⟩
  · have := hx.2.2; omega
  · have := hx.2.2; omega

set_option maxHeartbeats 1000000 in
theorem deser_step (E : Halts o num nul L I A m w cfg.strict) (hT : SoundTypes env num nul) {n : Nat} (H : DesBelow o num nul L I A m w env cfg n) :
    DesBelow o num nul L I A m w env cfg (n + 1) := by
  intro ty
  induction ty with
  | int k =>
    intro old P p hS hO hp hn
    rw [deser]
    exact scalar_ends E hp (o.getInt k) (fun i => .ok (.int i)) (fun s h1 h2 => E.getInt hS k P s h1 h2) (fun a => .ok (by simp [Shaped]))
  | flt k =>
    intro old P p hS hO hp hn
    rw [deser]
    exact scalar_ends E hp (o.getFlt k) (fun i => .ok (.flt i)) (fun s h1 h2 => E.getFlt hS k P s h1 h2) (fun a => .ok (by simp [Shaped]))
  | bool =>
    intro old P p hS hO hp hn
    rw [deser]
    exact scalar_ends E hp o.getBool (fun i => .ok (.bool i)) (fun s h1 h2 => E.getBool P s h1 h2) (fun a => .ok (by simp [Shaped]))
  | str =>
    intro old P p hS hO hp hn
    rw [deser]
    exact scalar_ends E hp o.getStr (fun i => .ok (.str i)) (fun s h1 h2 => E.getStr P s h1 h2) (fun a => .ok (by simp [Shaped]))
  | seq c t ih =>
    intro old P p hS hO hp hn
    rw [deser]
    obtain ⟨vs, rfl⟩ : ∃ vs, old = .list vs := by cases old <;> simp [Shaped] at hO ⊢
    refine open_ends E hp (Nat.le_of_lt_succ hn) .ArrayStart E.arrayStart (fun p => deserVec o env cfg c t vs p) fun p1 hc hl => ?_
    refine (vec_ends E hT H c t hS.2 hS.1 _ _ 0 vs p1 hc.loose (Nat.lt_succ_self _) hl).mono ?_
    rintro ⟨v, p2⟩ ⟨h1, ⟨vs', h2⟩, h3⟩
    dsimp only at h2
    subst h2
    exact ⟨h1, by simp [Shaped], h3⟩
  | arr k t ih => intro old P p hS; exact absurd hS (by simp [Sound])
  | smap t ih =>
    intro old P p hS hO hp hn
    rw [deser]
    obtain ⟨kvs, rfl⟩ : ∃ kvs, old = .dict kvs := by cases old <;> simp [Shaped] at hO ⊢
    simp only [Shaped] at hO
    refine open_ends E hp (Nat.le_of_lt_succ hn) .MapStart E.mapStart (fun p => deserDict o env cfg .sorted t kvs p) fun p1 hc hl => ?_
    refine (dict_ends E hT H .sorted t hS _ _ 0 kvs p1 rfl (fun _ => hO) hc.loose (Nat.lt_succ_self _) hl).mono ?_
    rintro ⟨v, p2⟩ ⟨h1, ⟨vs', h2, h4⟩, h3⟩
    dsimp only at h2
    subst h2
    exact ⟨h1, by simpa [Shaped] using h4 rfl, h3⟩
  | mmap t ih =>
    intro old P p hS hO hp hn
    rw [deser]
    obtain ⟨kvs, rfl⟩ : ∃ kvs, old = .dict kvs := by cases old <;> simp [Shaped] at hO ⊢
    refine open_ends E hp (Nat.le_of_lt_succ hn) .MapStart E.mapStart (fun p => deserDict o env cfg .multi t kvs p) fun p1 hc hl => ?_
    refine (dict_ends E hT H .multi t hS _ _ 0 kvs p1 rfl (fun h => by cases h) hc.loose (Nat.lt_succ_self _) hl).mono ?_
    rintro ⟨v, p2⟩ ⟨h1, ⟨vs', h2, h4⟩, h3⟩
    dsimp only at h2
    subst h2
    exact ⟨h1, by simp [Shaped], h3⟩
  | umap t ih =>
    intro old P p hS hO hp hn
    rw [deser]
    obtain ⟨kvs, rfl⟩ : ∃ kvs, old = .dict kvs := by cases old <;> simp [Shaped] at hO ⊢
    refine open_ends E hp (Nat.le_of_lt_succ hn) .MapStart E.mapStart (fun p => deserDict o env cfg .unordered t kvs p) fun p1 hc hl => ?_
    refine (dict_ends E hT H .unordered t hS _ _ 0 kvs p1 rfl (fun h => by cases h) hc.loose (Nat.lt_succ_self _) hl).mono ?_
    rintro ⟨v, p2⟩ ⟨h1, ⟨vs', h2, h4⟩, h3⟩
    dsimp only at h2
    subst h2
    exact ⟨h1, by simp [Shaped], h3⟩
  | opt t ih =>
    intro old P p hS hO hp hn
    rw [deser]
    refine (ih (old.contentOr (t.default env)) P p hS ?_ hp hn).bind ?_
    · cases old <;> first
        | exact default_shaped hT t hS
        | simpa [Shaped, Val.contentOr] using hO
    · rintro ⟨v, p1⟩ ⟨h1, h2, h3, h4⟩
      exact .ok ⟨h1, by simpa [Shaped] using h2, h3, h4⟩
  | uptr t ih =>
    intro old P p hS hO hp hn
    rw [deser]
    refine (hp.getToken E).bind ?_
    rintro ⟨k, p1⟩ ⟨hc, ha, hl⟩
    dsimp only at hc ha hl ⊢
    split
    · next hnull =>
      refine (E.null P k _ hc.inner ha hnull).bind fun s hs => ?_
      have e : left m w { p1 with inner := s } = m s := by unfold left; dsimp only; rw [hc.pb1, E.error]; rfl
      refine .ok ⟨⟨hs.1, hc.pb2, .inl hc.pb1⟩, by simp [Shaped], ?_, fun h => ?_⟩
      · have := hs.2.1
        dsimp only
        omega
      · have := hs.2.2 (.inl (h.resolve_right (by simp [nullable])))
        dsimp only
        omega
    · obtain ⟨q1, q2⟩ := hc.push E ha
      refine (ih (t.default env) P (p1.pushBackToken k) hS (default_shaped hT t hS) q1 (by omega)).bind ?_
      rintro ⟨v, p2⟩ ⟨h1, h2, h3, h4⟩
      exact .ok ⟨h1, by simp [Shaped], by dsimp only at h3 ⊢; omega, fun h => by have := h4 (.inl (h.resolve_right (by simp [nullable]))); dsimp only at this ⊢; omega⟩
  | pptr b =>
    intro old P p hS hO hp hn
    rw [deser]
    refine (hp.getToken E).bind ?_
    rintro ⟨k, p1⟩ ⟨hc, ha, hl⟩
    dsimp only at hc ha hl ⊢
    split
    · next hnull =>
      refine (E.null P k _ hc.inner ha hnull).bind fun s hs => ?_
      have e : left m w { p1 with inner := s } = m s := by unfold left; dsimp only; rw [hc.pb1, E.error]; rfl
      refine .ok ⟨⟨hs.1, hc.pb2, .inl hc.pb1⟩, by simp [Shaped], ?_, fun h => ?_⟩
      · have := hs.2.1
        dsimp only
        omega
      · have := hs.2.2 (.inl (h.resolve_right (by simp [nullable])))
        dsimp only
        omega
    · obtain ⟨q1, q2⟩ := hc.push E ha
      refine (q1.polyName E _).bind ?_
      rintro ⟨name, p2⟩ ⟨h1, h2⟩
      dsimp only at h1 h2 ⊢
      cases hr : env.registry.lookup name with
      | none => exact .throwStd
      | some c =>
        dsimp only
        obtain ⟨nm, hm⟩ := lookup_mem _ _ hr
        obtain ⟨s1, d, s2⟩ := hS nm c hm
        rw [if_neg (by rw [s1]; simp), s2]
        dsimp only
        refine (class_ends E H d.traits (hT.cls c d s2) (env.dflt c) P p2 ((shaped_cls s2 _).1 (hT.dflt c)) (.inr h1) (by omega)).bind ?_
        rintro ⟨v, p3⟩ ⟨t1, t2, t3⟩
        exact .ok ⟨t1, by simp [Shaped], by dsimp only at t3 ⊢; omega, fun _ => by dsimp only at t3 ⊢; omega⟩
  | named i =>
    intro old P p hS hO hp hn
    rw [deser]
    cases hd : env.defs i with
    | cls d =>
      dsimp only
      refine (class_ends E H d.traits (hT.cls i d hd) old P p ((shaped_cls hd _).1 hO) (.inl hp) (by omega)).mono ?_
      rintro ⟨v, p1⟩ ⟨h1, h2, h3⟩
      dsimp only at h1 h2 h3
      exact ⟨h1, (shaped_cls hd _).2 h2, by dsimp only; omega, fun _ => h3⟩
    | tuple ts => exact absurd hd (hS ts)
    | enum table =>
      dsimp only
      have := scalar_ends (env := env) (nul := nul) (ty := .named i) E hp o.getStr (fun s => match enumOf table s with | some v => .ok (.enum v) | none => throwStd)
        (fun s h1 h2 => E.getStr P s h1 h2) (fun a => by
          cases enumOf table a with
          | none => exact .throwStd
          | some v => exact .ok (shaped_other (by rw [hd]; intro d h; cases h) _))
      refine cast (congrArg _ ?_) this
      congr 1
      funext x
      obtain ⟨t, p1⟩ := x
      dsimp only
      split
      · rfl
      · congr 1
        funext y
        obtain ⟨a, p2⟩ := y
        dsimp only
        cases enumOf table a <;> rfl
    | variant alts =>
      dsimp only
      refine (hp.polyName E _).bind ?_
      rintro ⟨name, p1⟩ ⟨h1, h2⟩
      dsimp only at h1 h2 ⊢
      have hsh : ∀ v, Shaped env (.named i) v := shaped_other (by rw [hd]; intro d h; cases h)
      cases hr : pickAlt env cfg (polyMarker env cfg.marker (alts.headD 0)) name alts with
      | none =>
        dsimp only
        cases L with
        | true =>
          have hl : ELoose true I P p1 := ⟨E.loose rfl _ _ _ h1.inner, h1.pb2, .inr ⟨rfl, h1.pb1⟩⟩
          refine (hl.ignore E).bind fun p2 h3 => .ok ⟨h3.1, hsh _, ?_, fun _ => ?_⟩
          · have := h3.2; dsimp only; omega
          · have := h3.2; dsimp only; omega
        | false =>
          refine Safe.bind (P := fun _ => False) ?_ fun _ hf => hf.elim
          unfold PI.ignoreValue
          split
          · exact .throwStd
          · exact (ignore_key E rfl (keyPos_even rfl) h1.inner).bind fun _ hf => hf.elim
      | some c =>
        dsimp only
        obtain ⟨d, s2⟩ := hT.alts i alts hd c (pickAlt_mem _ _ hr)
        rw [s2]
        dsimp only
        refine (class_ends E H d.traits (hT.cls c d s2) (env.dflt c) P p1 ((shaped_cls s2 _).1 (hT.dflt c)) (.inr h1) (by omega)).bind ?_
        rintro ⟨v, p3⟩ ⟨t1, t2, t3⟩
        dsimp only at t3
        exact .ok ⟨t1, hsh _, by dsimp only; omega, fun _ => by dsimp only; omega⟩

theorem deser_ends (E : Halts o num nul L I A m w cfg.strict) (hT : SoundTypes env num nul) : ∀ n, DesBelow o num nul L I A m w env cfg n
  | 0 => fun _ _ _ _ _ _ _ h => absurd h (Nat.not_lt_zero _)
  | n + 1 => deser_step E hT (deser_ends E hT n)

end
end
end Thors
