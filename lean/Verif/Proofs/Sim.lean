import Verif.Proofs.Watch
import Verif.Proofs.BsonPrint
/-
Two parsers side by side: if each operation of the first, where it succeeds, is followed by the second, then so is an
import. The first may leave the second behind (`none`); `D` says what is known when the end of the document is reached.
-/
namespace Thors
open Lean.Order StrIn

section
variable {α β P P' Q Q' : Type}

/-- Whatever the run `r` gives, the run `A` from the state `g` gives too, in a related state; or the second parser is left
behind. -/
def Sim (J : α → P → Option P' → Prop) (r : Res (α × P)) (g : Option Q') (A : Q' → Res (α × P')) : Prop :=
  ∀ a p, r = .ok (a, p) → ∃ g2, J a p g2 ∧ ∀ p', g2 = some p' → ∃ q', g = some q' ∧ A q' = .ok (a, p')

/-- The same for runs that give a state only. -/
def Sim1 (J : P → Option P' → Prop) (r : Res P) (g : Option Q') (A : Q' → Res P') : Prop :=
  ∀ p, r = .ok p → ∃ g2, J p g2 ∧ ∀ p', g2 = some p' → ∃ q', g = some q' ∧ A q' = .ok p'

namespace Sim
variable {J : α → P → Option P' → Prop} {K : β → Q → Option Q' → Prop} {R' : Type} {g : Option R'}

theorem throwStd {A : R' → Res (α × P')} : Sim J throwStd g A := by intro a p h; cases h
theorem ub {A : R' → Res (α × P')} : Sim J .ub g A := by intro a p h; cases h
theorem ok {a : α} {p : P} {A : P' → Res (α × P')} {g : Option P'} (h : J a p g) (e : ∀ p', A p' = .ok (a, p')) : Sim J (.ok (a, p)) g A := by
  intro b q hb; cases hb
  exact ⟨g, h, fun p' hp => ⟨p', hp, e p'⟩⟩
theorem bind {r : Res (α × P)} {A : R' → Res (α × P')} {f : α × P → Res (β × Q)} {f' : α × P' → Res (β × Q')} (h : Sim J r g A)
    (h2 : ∀ a p g2, J a p g2 → Sim K (f (a, p)) g2 (fun p' => f' (a, p'))) : Sim K (r >>= f) g (fun q' => A q' >>= f') := by
  intro b q hb
  obtain ⟨⟨a, p⟩, h1, h3⟩ := Res.bind_ok hb
  obtain ⟨g2, hj, hg⟩ := h a p h1
  obtain ⟨g3, hk, hh⟩ := h2 a p g2 hj b q h3
  refine ⟨g3, hk, fun q' e => ?_⟩
  obtain ⟨p', e1, e2⟩ := hh q' e
  obtain ⟨r', e3, e4⟩ := hg p' e1
  exact ⟨r', e3, by dsimp only at e2 ⊢; rw [e4, Res.ok_bind]; exact e2⟩
theorem congr {r : Res (α × P)} {A A' : R' → Res (α × P')} (e : ∀ q, A q = A' q) (h : Sim J r g A') : Sim J r g A := by
  rw [funext e]; exact h
theorem mono {J' : α → P → Option P' → Prop} {r : Res (α × P)} {A : R' → Res (α × P')} (h : Sim J r g A) (h2 : ∀ a p g, J a p g → J' a p g) : Sim J' r g A := by
  intro a p e
  obtain ⟨g2, h1, h3⟩ := h a p e
  exact ⟨g2, h2 _ _ _ h1, h3⟩
theorem bind1 {J1 : P → Option P' → Prop} {r : Res P} {A : R' → Res P'} {f : P → Res (β × Q)} {f' : P' → Res (β × Q')} (h : Sim1 J1 r g A)
    (h2 : ∀ p g2, J1 p g2 → Sim K (f p) g2 f') : Sim K (r >>= f) g (fun q' => A q' >>= f') := by
  intro b q hb
  obtain ⟨p, h1, h3⟩ := Res.bind_ok hb
  obtain ⟨g2, hj, hg⟩ := h p h1
  obtain ⟨g3, hk, hh⟩ := h2 p g2 hj b q h3
  refine ⟨g3, hk, fun q' e => ?_⟩
  obtain ⟨p', e1, e2⟩ := hh q' e
  obtain ⟨r', e3, e4⟩ := hg p' e1
  exact ⟨r', e3, by dsimp only at e2 ⊢; rw [e4, Res.ok_bind]; exact e2⟩
end Sim

namespace Sim1
variable {J : P → Option P' → Prop} {K : Q → Option Q' → Prop} {R' : Type} {g : Option R'}
theorem throwStd {A : R' → Res P'} : Sim1 J throwStd g A := by intro p h; cases h
theorem ub {A : R' → Res P'} : Sim1 J .ub g A := by intro p h; cases h
theorem ok {p : P} {A : P' → Res P'} {g : Option P'} (h : J p g) (e : ∀ p', A p' = .ok p') : Sim1 J (.ok p) g A := by
  intro q hb; cases hb
  exact ⟨g, h, fun p' hp => ⟨p', hp, e p'⟩⟩
theorem bind {r : Res P} {A : R' → Res P'} {f : P → Res Q} {f' : P' → Res Q'} (h : Sim1 J r g A)
    (h2 : ∀ p g2, J p g2 → Sim1 K (f p) g2 f') : Sim1 K (r >>= f) g (fun q' => A q' >>= f') := by
  intro q hb
  obtain ⟨p, h1, h3⟩ := Res.bind_ok hb
  obtain ⟨g2, hj, hg⟩ := h p h1
  obtain ⟨g3, hk, hh⟩ := h2 p g2 hj q h3
  refine ⟨g3, hk, fun q' e => ?_⟩
  obtain ⟨p', e1, e2⟩ := hh q' e
  obtain ⟨r', e3, e4⟩ := hg p' e1
  exact ⟨r', e3, by dsimp only at e2 ⊢; rw [e4, Res.ok_bind]; exact e2⟩
theorem bind2 {J2 : α → P → Option P' → Prop} {r : Res (α × P)} {A : R' → Res (α × P')} {f : α × P → Res Q} {f' : α × P' → Res Q'} (h : Sim J2 r g A)
    (h2 : ∀ a p g2, J2 a p g2 → Sim1 K (f (a, p)) g2 (fun p' => f' (a, p'))) : Sim1 K (r >>= f) g (fun q' => A q' >>= f') := by
  intro q hb
  obtain ⟨⟨a, p⟩, h1, h3⟩ := Res.bind_ok hb
  obtain ⟨g2, hj, hg⟩ := h a p h1
  obtain ⟨g3, hk, hh⟩ := h2 a p g2 hj q h3
  refine ⟨g3, hk, fun q' e => ?_⟩
  obtain ⟨p', e1, e2⟩ := hh q' e
  obtain ⟨r', e3, e4⟩ := hg p' e1
  exact ⟨r', e3, by dsimp only at e2 ⊢; rw [e4, Res.ok_bind]; exact e2⟩
theorem congr {r : Res P} {A A' : R' → Res P'} (e : ∀ q, A q = A' q) (h : Sim1 J r g A') : Sim1 J r g A := by
  rw [funext e]; exact h
end Sim1
end

/-- The second parser follows the first: `J` relates their states (`none`: left behind), `V`: a value is current, `w`:
values may be skipped, `D`: what holds at the end of the document. -/
structure SimOps {σ σ' : Type} (o : POps σ) (o' : POps σ') (w : Prop) (J : σ → Option σ' → Prop) (V : σ → Prop) (D : σ → Option σ' → Prop) : Prop where
  next : ∀ s g, J s g → Sim (fun t s g => J s g ∧ (t = .Value → V s) ∧ (t = .DocEnd → D s g)) (o.next s) g o'.next
  getKey : ∀ s g, J s g → Sim (fun _ s g => J s g) (o.getKey s) g o'.getKey
  getInt : ∀ k s g, J s g → V s → Sim (fun _ s g => J s g) (o.getInt k s) g (o'.getInt k)
  getFlt : ∀ f s g, J s g → V s → Sim (fun _ s g => J s g) (o.getFlt f s) g (o'.getFlt f)
  getBool : ∀ s g, J s g → V s → Sim (fun _ s g => J s g) (o.getBool s) g o'.getBool
  getStr : ∀ s g, J s g → V s → Sim (fun _ s g => J s g) (o.getStr s) g o'.getStr
  isNull : ∀ s s', J s (some s') → o'.isNull s' = o.isNull s
  ignoreData : ∀ s g, J s g → w ∨ o.isNull s = true → Sim1 J (o.ignoreData s) g o'.ignoreData

section
variable {σ σ' : Type} {o : POps σ} {o' : POps σ'} {w : Prop} {J : σ → Option σ' → Prop} {V : σ → Prop} {D : σ → Option σ' → Prop}

/-- At most one token is pushed back, the same in both; a value only if it is current. -/
structure SPre (J : σ → Option σ' → Prop) (V : σ → Prop) (D : σ → Option σ' → Prop) (p : PI σ) (g : Option (PI σ')) : Prop where
  inner : J p.inner (g.map PI.inner)
  same : ∀ p', g = some p' → p'.pb1 = p.pb1 ∧ p'.pb2 = p.pb2
  pb2 : p.pb2 = .Error
  tok : p.pb1 = .DocEnd → D p.inner (g.map PI.inner)
  val : p.pb1 = .Value → V p.inner

/-- Nothing is pushed back. -/
structure SClean (J : σ → Option σ' → Prop) (p : PI σ) (g : Option (PI σ')) : Prop where
  inner : J p.inner (g.map PI.inner)
  same : ∀ p', g = some p' → p'.pb1 = p.pb1 ∧ p'.pb2 = p.pb2
  pb1 : p.pb1 = .Error
  pb2 : p.pb2 = .Error

/-- A token other than a value may be pushed back. -/
structure SLoose (J : σ → Option σ' → Prop) (D : σ → Option σ' → Prop) (p : PI σ) (g : Option (PI σ')) : Prop where
  inner : J p.inner (g.map PI.inner)
  same : ∀ p', g = some p' → p'.pb1 = p.pb1 ∧ p'.pb2 = p.pb2
  pb2 : p.pb2 = .Error
  tok : p.pb1 = .DocEnd → D p.inner (g.map PI.inner)
  val : p.pb1 ≠ .Value

variable {p : PI σ} {g : Option (PI σ')}

theorem SLoose.pre (h : SLoose J D p g) : SPre J V D p g := ⟨h.inner, h.same, h.pb2, h.tok, fun e => absurd e h.val⟩
theorem SClean.loose (h : SClean J p g) : SLoose J D p g := ⟨h.inner, h.same, h.pb2, by rw [h.pb1]; simp, by rw [h.pb1]; simp⟩
theorem SClean.pre (h : SClean J p g) : SPre J V D p g := h.loose.pre

theorem SPre.getToken (S : SimOps o o' w J V D) (h : SPre J V D p g) :
    Sim (fun t p g => SClean J p g ∧ (t = .Value → V p.inner) ∧ (t = .DocEnd → D p.inner (g.map PI.inner))) (p.getToken o) g (·.getToken o') := by
  intro t q e
  unfold PI.getToken at e
  rw [if_neg (by simp [h.pb2])] at e
  by_cases h1 : p.pb1 = .Error
  · rw [if_neg (by simp [h1])] at e
    obtain ⟨⟨t', s⟩, e1, e2⟩ := Res.bind_ok e
    cases e2
    obtain ⟨g2, ⟨hj, hv, hd⟩, hg⟩ := S.next _ _ h.inner _ _ e1
    refine ⟨g2.map fun s' => ⟨s', p.pb1, p.pb2⟩, ⟨⟨?_, ?_, h1, h.pb2⟩, hv, ?_⟩, ?_⟩
    · cases g2 <;> exact hj
    · intro p' hp
      cases g2 with
      | none => cases hp
      | some s' => cases hp; exact ⟨rfl, rfl⟩
    · intro ht
      have := hd ht
      cases g2 <;> exact this
    · intro p' hp
      cases g2 with
      | none => cases hp
      | some s' =>
        cases hp
        obtain ⟨q', e3, e4⟩ := hg s' rfl
        cases g with
        | none => cases e3
        | some q =>
          cases e3
          obtain ⟨a, b⟩ := h.same q rfl
          refine ⟨q, rfl, ?_⟩
          unfold PI.getToken
          dsimp only
          rw [if_neg (by rw [b]; simp [h.pb2]), if_neg (by rw [a]; simp [h1]), e4]
          simp only [Res.ok_bind, ← a, ← b]
          rfl
  · rw [if_pos h1] at e
    cases e
    refine ⟨g.map fun p' => { p' with pb1 := .Error }, ⟨⟨?_, ?_, rfl, h.pb2⟩, h.val, ?_⟩, ?_⟩
    · have := h.inner
      cases g <;> exact this
    · intro p' hp
      cases g with
      | none => cases hp
      | some q => cases hp; exact ⟨rfl, (h.same q rfl).2⟩
    · intro ht
      have := h.tok ht
      cases g <;> exact this
    · intro p' hp
      cases g with
      | none => cases hp
      | some q =>
        cases hp
        obtain ⟨a, b⟩ := h.same q rfl
        refine ⟨q, rfl, ?_⟩
        unfold PI.getToken
        dsimp only
        rw [if_neg (by rw [b]; simp [h.pb2]), if_pos (by rw [a]; exact h1), a]

theorem SClean.push {k : Tok} (h : SClean J p g) (hv : k = .Value → V p.inner) (hd : k = .DocEnd → D p.inner (g.map PI.inner)) :
    SPre J V D (p.pushBackToken k) (g.map (·.pushBackToken k)) := by
  have e : p.pushBackToken k = { p with pb1 := k } := by unfold PI.pushBackToken; rw [if_pos h.pb1]
  rw [e]
  cases g with
  | none => exact ⟨h.inner, fun _ hp => (by cases hp), h.pb2, hd, hv⟩
  | some q =>
    obtain ⟨a, b⟩ := h.same q rfl
    have e : q.pushBackToken k = { q with pb1 := k } := by unfold PI.pushBackToken; rw [if_pos (by rw [a]; exact h.pb1)]
    rw [Option.map_some, e]
    exact ⟨h.inner, fun p' hp => by cases hp; exact ⟨rfl, b⟩, h.pb2, hd, hv⟩

theorem Sim.pushed {α P : Type} {K : α → P → Option (PI σ') → Prop} {k : Tok} {r : Res (α × P)} {A : PI σ' → Res (α × PI σ')}
    (h : Sim K r (g.map (·.pushBackToken k)) A) : Sim K r g (fun p' => A (p'.pushBackToken k)) := by
  intro a q e
  obtain ⟨g2, h1, h2⟩ := h a q e
  refine ⟨g2, h1, fun p' hp => ?_⟩
  obtain ⟨q', e1, e2⟩ := h2 p' hp
  cases g with
  | none => cases e1
  | some x => cases e1; exact ⟨x, rfl, e2⟩

theorem SClean.lift {α : Type} {f : σ → Res (α × σ)} {f' : σ' → Res (α × σ')} (h : SClean J p g)
    (hr : Sim (fun _ s g => J s g) (f p.inner) (g.map PI.inner) f') :
    Sim (fun _ p g => SClean J p g) (p.lift (f p.inner)) g (fun p' => p'.lift (f' p'.inner)) := by
  intro a q e
  unfold PI.lift at e
  obtain ⟨⟨b, s⟩, e1, e2⟩ := Res.bind_ok e
  cases e2
  obtain ⟨g2, hj, hg⟩ := hr _ _ e1
  refine ⟨g2.map fun s' => ⟨s', p.pb1, p.pb2⟩, ⟨?_, ?_, h.pb1, h.pb2⟩, ?_⟩
  · cases g2 <;> exact hj
  · intro p' hp
    cases g2 with
    | none => cases hp
    | some s' => cases hp; exact ⟨rfl, rfl⟩
  · intro p' hp
    cases g2 with
    | none => cases hp
    | some s' =>
      cases hp
      obtain ⟨q', e3, e4⟩ := hg s' rfl
      cases g with
      | none => cases e3
      | some q =>
        cases e3
        obtain ⟨a, b⟩ := h.same q rfl
        refine ⟨q, rfl, ?_⟩
        unfold PI.lift
        dsimp only
        rw [e4]
        simp only [Res.ok_bind, ← a, ← b]
        rfl

/-- Operations that give a state only, on the inner state. -/
theorem Sim1.inner {I : PI σ → Option (PI σ') → Prop} {f : σ → Res σ} {f' : σ' → Res σ'}
    (hI : ∀ s g2, J s g2 → I { p with inner := s } (g2.map fun s' => ⟨s', p.pb1, p.pb2⟩)) (same : ∀ p', g = some p' → p'.pb1 = p.pb1 ∧ p'.pb2 = p.pb2)
    (hr : Sim1 J (f p.inner) (g.map PI.inner) f') :
    Sim1 I (do let s ← f p.inner; return { p with inner := s }) g (fun p' => do let s ← f' p'.inner; return { p' with inner := s }) := by
  intro q e
  obtain ⟨s, e1, e2⟩ := Res.bind_ok e
  cases e2
  obtain ⟨g2, hj, hg⟩ := hr _ e1
  refine ⟨g2.map fun s' => ⟨s', p.pb1, p.pb2⟩, hI _ _ hj, ?_⟩
  intro p' hp
  cases g2 with
  | none => cases hp
  | some s' =>
    cases hp
    obtain ⟨q', e3, e4⟩ := hg s' rfl
    cases g with
    | none => cases e3
    | some q =>
      cases e3
      obtain ⟨a, b⟩ := same q rfl
      refine ⟨q, rfl, ?_⟩
      dsimp only
      rw [e4]
      simp only [Res.ok_bind, ← a, ← b]
      rfl

theorem SClean.inner1 {f : σ → Res σ} {f' : σ' → Res σ'} (h : SClean J p g) (hr : Sim1 J (f p.inner) (g.map PI.inner) f') :
    Sim1 (SClean J) (do let s ← f p.inner; return { p with inner := s }) g (fun p' => do let s ← f' p'.inner; return { p' with inner := s }) := by
  refine Sim1.inner (fun s g2 hj => ⟨?_, ?_, h.pb1, h.pb2⟩) h.same hr
  · cases g2 <;> exact hj
  · intro p' hp
    cases g2 with
    | none => cases hp
    | some s' => cases hp; exact ⟨rfl, rfl⟩

theorem SLoose.inner1 {f : σ → Res σ} {f' : σ' → Res σ'} (h : SLoose J D p g) (ht : p.pb1 ≠ .DocEnd) (hr : Sim1 J (f p.inner) (g.map PI.inner) f') :
    Sim1 (SLoose J D) (do let s ← f p.inner; return { p with inner := s }) g (fun p' => do let s ← f' p'.inner; return { p' with inner := s }) := by
  refine Sim1.inner (fun s g2 hj => ⟨?_, ?_, h.pb2, fun e => absurd e ht, h.val⟩) h.same hr
  · cases g2 <;> exact hj
  · intro p' hp
    cases g2 with
    | none => cases hp
    | some s' => cases hp; exact ⟨rfl, rfl⟩

theorem Sim1.admissible {P P' R' : Type} {I : P → Option P' → Prop} {g : Option R'} {A : R' → Res P'} :
    Lean.Order.admissible (fun r : Res P => Sim1 I r g A) := admissible_flatOrder (b := Res.ub) _ .ub

theorem ignore_sim (S : SimOps o o' w J V D) (hw : w) :
    (∀ s, ∀ g, J s g → Sim1 J (ignoreTheValue o s) g (ignoreTheValue o')) ∧ (∀ s, ∀ g, J s g → Sim1 J (ignoreTheArray o s) g (ignoreTheArray o')) ∧
      (∀ s, ∀ g, J s g → Sim1 J (ignoreTheMap o s) g (ignoreTheMap o')) := by
  have ig : ∀ s g, J s g → Sim1 J (o.ignoreData s) g o'.ignoreData := fun s g h => S.ignoreData s g h (.inl hw)
  refine ignoreTheValue.mutual_fixpoint_induct o (fun f => ∀ s, ∀ g, J s g → Sim1 J (f s) g (ignoreTheValue o'))
    (fun f => ∀ s, ∀ g, J s g → Sim1 J (f s) g (ignoreTheArray o')) (fun f => ∀ s, ∀ g, J s g → Sim1 J (f s) g (ignoreTheMap o'))
    ?_ ?_ ?_ ?_ ?_ ?_
  · exact admissible_pi _ fun s => admissible_pi _ fun g => admissible_pi _ fun _ => admissible_apply (fun _ r => Sim1 J r g (ignoreTheValue o')) s Sim1.admissible
  · exact admissible_pi _ fun s => admissible_pi _ fun g => admissible_pi _ fun _ => admissible_apply (fun _ r => Sim1 J r g (ignoreTheArray o')) s Sim1.admissible
  · exact admissible_pi _ fun s => admissible_pi _ fun g => admissible_pi _ fun _ => admissible_apply (fun _ r => Sim1 J r g (ignoreTheMap o')) s Sim1.admissible
  · intro fa fm ha hm s g hs
    refine Sim1.congr (fun q => ignoreTheValue.eq_def o' q) ?_
    refine Sim1.bind2 (S.next s g hs) ?_
    rintro t s g ⟨h1, -, -⟩
    dsimp only
    cases t <;> first | exact .throwStd | exact ig s g h1 | exact hm s g h1 | exact ha s g h1
  · intro fa fm ha hm s g hs
    refine Sim1.congr (fun q => ignoreTheArray.eq_def o' q) ?_
    refine Sim1.bind2 (S.next s g hs) ?_
    rintro t s g ⟨h1, -, -⟩
    dsimp only
    cases t <;> first
      | exact .throwStd
      | exact .ok h1 fun _ => rfl
      | exact (ig s g h1).bind fun s g h => ha s g h
      | exact (hm s g h1).bind fun s g h => ha s g h
      | exact (ha s g h1).bind fun s g h => ha s g h
  · intro fv fm hv hm s g hs
    refine Sim1.congr (fun q => ignoreTheMap.eq_def o' q) ?_
    refine Sim1.bind2 (S.next s g hs) ?_
    rintro t s g ⟨h1, -, -⟩
    dsimp only
    by_cases ht : t = .MapEnd
    · simp only [if_pos ht]
      exact .ok h1 fun _ => rfl
    · simp only [if_neg ht]
      refine (ig s g h1).bind fun s g h => ?_
      by_cases ht : t ≠ .Key
      · simp only [if_pos ht]
        exact .throwStd
      · simp only [if_neg ht]
        exact (hv s g h).bind fun s g h => hm s g h

theorem SClean.ignore (S : SimOps o o' w J V D) (st : ParseType) (hw : st = .Weak → w) (h : SClean J p g) :
    Sim1 (SClean J) (p.ignoreValue o st) g (·.ignoreValue o' st) := by
  unfold PI.ignoreValue
  by_cases hs : st ≠ .Weak
  · simp only [if_pos hs]
    exact .throwStd
  · simp only [if_neg hs]
    exact h.inner1 ((ignore_sim S (hw (by simpa using hs))).1 _ _ h.inner)

theorem SLoose.ignore (S : SimOps o o' w J V D) (st : ParseType) (hw : st = .Weak → w) (ht : p.pb1 ≠ .DocEnd) (h : SLoose J D p g) :
    Sim1 (SLoose J D) (p.ignoreValue o st) g (·.ignoreValue o' st) := by
  unfold PI.ignoreValue
  by_cases hs : st ≠ .Weak
  · simp only [if_pos hs]
    exact .throwStd
  · simp only [if_neg hs]
    exact h.inner1 ht ((ignore_sim S (hw (by simpa using hs))).1 _ _ h.inner)

theorem SPre.polyName (S : SimOps o o' w J V D) (mk : Bytes) (h : SPre J V D p g) :
    Sim (fun _ p g => SLoose J D p g ∧ p.pb1 ≠ .DocEnd) (polyClassName o mk p) g (polyClassName o' mk) := by
  unfold polyClassName
  refine (h.getToken S).bind ?_
  rintro t p g ⟨hc, -, -⟩
  dsimp only
  by_cases ht : t ≠ .MapStart
  · simp only [if_pos ht]; exact .throwStd
  simp only [if_neg ht]
  refine (hc.pre.getToken S).bind ?_
  rintro t p g ⟨hc, -, -⟩
  dsimp only
  by_cases ht : t ≠ .Key
  · simp only [if_pos ht]; exact .throwStd
  simp only [if_neg ht]
  refine (hc.lift (S.getKey _ _ hc.inner)).bind ?_
  rintro key p g hc
  dsimp only
  by_cases ht : key ≠ mk
  · simp only [if_pos ht]; exact .throwStd
  simp only [if_neg ht]
  refine (hc.pre.getToken S).bind ?_
  rintro t p g ⟨hc, hv, -⟩
  dsimp only
  by_cases ht : t ≠ .Value
  · simp only [if_pos ht]; exact .throwStd
  simp only [if_neg ht]
  refine (hc.lift (S.getStr _ _ hc.inner (hv (by simpa using ht)))).bind ?_
  rintro name p g hc
  dsimp only
  refine Sim.pushed (A := fun p' => .ok (name, p')) ?_
  have := hc.push (V := V) (D := D) (k := .MapStart) (by simp) (by simp)
  refine .ok ⟨⟨this.inner, this.same, this.pb2, this.tok, ?_⟩, ?_⟩ fun _ => rfl
  · unfold PI.pushBackToken; rw [if_pos hc.pb1]; simp
  · unfold PI.pushBackToken; rw [if_pos hc.pb1]; simp

theorem Sim.congr_some {α P P' R' : Type} {K : α → P → Option P' → Prop} {r : Res (α × P)} {g : Option R'} {A A' : R' → Res (α × P')}
    (e : ∀ q, g = some q → A q = A' q) (h : Sim K r g A') : Sim K r g A := by
  intro a p hr
  obtain ⟨g2, h1, h2⟩ := h a p hr
  refine ⟨g2, h1, fun p' hp => ?_⟩
  obtain ⟨q', e1, e2⟩ := h2 p' hp
  exact ⟨q', e1, by rw [e q' e1]; exact e2⟩

theorem Sim.of1 {K : Val → PI σ → Option (PI σ') → Prop} {I : PI σ → Option (PI σ') → Prop} {f : Res σ} {f' : PI σ' → Res σ'} {v : Val}
    (h : Sim1 I (do let s ← f; return { p with inner := s }) g (fun p' => do let s ← f' p'; return { p' with inner := s }))
    (hI : ∀ p g, I p g → K v p g) :
    Sim K (do let s ← f; return (v, { p with inner := s })) g (fun p' => do let s ← f' p'; return (v, { p' with inner := s })) := by
  intro a q e
  obtain ⟨s, e1, e2⟩ := Res.bind_ok e
  cases e2
  obtain ⟨g2, h1, h2⟩ := h { p with inner := s } (by rw [e1]; rfl)
  refine ⟨g2, hI _ _ h1, fun p' hp => ?_⟩
  obtain ⟨q', e3, e4⟩ := h2 p' hp
  obtain ⟨s', e5, e6⟩ := Res.bind_ok e4
  cases e6
  exact ⟨q', e3, by dsimp only; rw [e5]; rfl⟩

theorem Sim.admissible {α P P' R' : Type} {I : α → P → Option P' → Prop} {g : Option R'} {A : R' → Res (α × P')} :
    Lean.Order.admissible (fun r : Res (α × P) => Sim I r g A) := admissible_flatOrder (b := Res.ub) _ .ub

theorem sadm3 {A B C D G : Type} (P : A → B → Res D → G → Prop) (hP : ∀ a b g, admissible fun r => P a b r g) (H : C → G → Prop) :
    admissible (fun f : A → B → C → Res D => ∀ a b c g, H c g → P a b (f a b c) g) :=
  admissible_pi _ fun a => admissible_pi _ fun b => admissible_pi _ fun c => admissible_pi _ fun g => admissible_pi _ fun _ =>
    admissible_apply (fun (_ : A) (f : B → C → Res D) => P a b (f b c) g) a
      (admissible_apply (fun (_ : B) (f : C → Res D) => P a b (f c) g) b (admissible_apply (fun (_ : C) (r : Res D) => P a b r g) c (hP a b g)))

theorem sadm4 {A B C D E G : Type} (P : A → B → C → Res E → G → Prop) (hP : ∀ a b c g, admissible fun r => P a b c r g) (H : D → G → Prop) :
    admissible (fun f : A → B → C → D → Res E => ∀ a b c d g, H d g → P a b c (f a b c d) g) :=
  admissible_pi _ fun a => admissible_pi _ fun b => admissible_pi _ fun c => admissible_pi _ fun d => admissible_pi _ fun g => admissible_pi _ fun _ =>
    admissible_apply (fun (_ : A) (f : B → C → D → Res E) => P a b c (f b c d) g) a
      (admissible_apply (fun (_ : B) (f : C → D → Res E) => P a b c (f c d) g) b
        (admissible_apply (fun (_ : C) (f : D → Res E) => P a b c (f d) g) c (admissible_apply (fun (_ : D) (r : Res E) => P a b c r g) d (hP a b c g))))

set_option maxHeartbeats 1000000 in
theorem deser_sim (S : SimOps o o' w J V D) (env : Env) (cfg : Cfg) (hw : cfg.strict = .Weak → w) :
    ∀ ty old p, ∀ g, SPre J V D p g → Sim (fun _ p g => SLoose J D p g) (deser o env cfg ty old p) g (deser o' env cfg ty old) := by
  refine (deser.mutual_fixpoint_induct o env cfg
    (fun f => ∀ ty old p, ∀ g, SPre J V D p g → Sim (fun _ p g => SLoose J D p g) (f ty old p) g (deser o' env cfg ty old))
    (fun f => ∀ d old p, ∀ g, SPre J V D p g → Sim (fun _ p g => SLoose J D p g) (f d old p) g (deserClass o' env cfg d old))
    (fun f => ∀ d found old p, ∀ g, SLoose J D p g → Sim (fun _ p g => SLoose J D p g) (f d found old p) g (deserMembers o' env cfg d found old))
    (fun f => ∀ kind t kvs p, ∀ g, SLoose J D p g → Sim (fun _ p g => SLoose J D p g) (f kind t kvs p) g (deserDict o' env cfg kind t kvs))
    (fun f => ∀ tyAt i vs p, ∀ g, SLoose J D p g → Sim (fun _ p g => SLoose J D p g) (f tyAt i vs p) g (deserFix o' env cfg tyAt i vs))
    (fun f => ∀ k t vs p, ∀ g, SLoose J D p g → Sim (fun _ p g => SLoose J D p g) (f k t vs p) g (deserVec o' env cfg k t vs))
    ?_ ?_ ?_ ?_ ?_ ?_ ?_ ?_ ?_ ?_ ?_ ?_).1
  · exact sadm3 (fun ty old r g => Sim (fun _ p g => SLoose J D p g) r g (deser o' env cfg ty old)) (fun _ _ _ => Sim.admissible) (SPre J V D)
  · exact sadm3 (fun d old r g => Sim (fun _ p g => SLoose J D p g) r g (deserClass o' env cfg d old)) (fun _ _ _ => Sim.admissible) (SPre J V D)
  · exact sadm4 (fun d found old r g => Sim (fun _ p g => SLoose J D p g) r g (deserMembers o' env cfg d found old)) (fun _ _ _ _ => Sim.admissible) (SLoose J D)
  · exact sadm4 (fun kind t kvs r g => Sim (fun _ p g => SLoose J D p g) r g (deserDict o' env cfg kind t kvs)) (fun _ _ _ _ => Sim.admissible) (SLoose J D)
  · exact sadm4 (fun tyAt i vs r g => Sim (fun _ p g => SLoose J D p g) r g (deserFix o' env cfg tyAt i vs)) (fun _ _ _ _ => Sim.admissible) (SLoose J D)
  · exact sadm4 (fun k t vs r g => Sim (fun _ p g => SLoose J D p g) r g (deserVec o' env cfg k t vs)) (fun _ _ _ _ => Sim.admissible) (SLoose J D)
  · intro deser deserClass deserDict deserFix deserVec h1 h2 h4 h5 h6 ty old p g hp
    refine Sim.congr (fun q => Thors.deser.eq_def o' env cfg ty old q) ?_
    cases ty with
    | int k =>
      refine (hp.getToken S).bind ?_
      rintro t p g ⟨hc, hv, hd⟩
      dsimp only
      by_cases ht : t ≠ .Value
      · simp only [if_pos ht]; exact .throwStd
      simp only [if_neg ht]
      exact (hc.lift (S.getInt k _ _ hc.inner (hv (by simpa using ht)))).bind fun x p g hx => .ok (SClean.loose hx) fun _ => rfl
    | flt f =>
      refine (hp.getToken S).bind ?_
      rintro t p g ⟨hc, hv, hd⟩
      dsimp only
      by_cases ht : t ≠ .Value
      · simp only [if_pos ht]; exact .throwStd
      simp only [if_neg ht]
      exact (hc.lift (S.getFlt f _ _ hc.inner (hv (by simpa using ht)))).bind fun x p g hx => .ok (SClean.loose hx) fun _ => rfl
    | bool =>
      refine (hp.getToken S).bind ?_
      rintro t p g ⟨hc, hv, hd⟩
      dsimp only
      by_cases ht : t ≠ .Value
      · simp only [if_pos ht]; exact .throwStd
      simp only [if_neg ht]
      exact (hc.lift (S.getBool _ _ hc.inner (hv (by simpa using ht)))).bind fun x p g hx => .ok (SClean.loose hx) fun _ => rfl
    | str =>
      refine (hp.getToken S).bind ?_
      rintro t p g ⟨hc, hv, hd⟩
      dsimp only
      by_cases ht : t ≠ .Value
      · simp only [if_pos ht]; exact .throwStd
      simp only [if_neg ht]
      exact (hc.lift (S.getStr _ _ hc.inner (hv (by simpa using ht)))).bind fun x p g hx => .ok (SClean.loose hx) fun _ => rfl
    | seq c t =>
      refine (hp.getToken S).bind ?_
      rintro k p g ⟨hc, hv, hd⟩
      dsimp only
      by_cases ht : k ≠ .ArrayStart
      · simp only [if_pos ht]; exact .throwStd
      simp only [if_neg ht]
      cases old <;> first | exact .ub | exact h6 _ _ _ _ _ hc.loose
    | arr n t =>
      refine (hp.getToken S).bind ?_
      rintro k p g ⟨hc, hv, hd⟩
      dsimp only
      by_cases ht : k ≠ .ArrayStart
      · simp only [if_pos ht]; exact .throwStd
      simp only [if_neg ht]
      cases old <;> first | exact .ub | exact h5 _ _ _ _ _ hc.loose
    | smap t =>
      refine (hp.getToken S).bind ?_
      rintro k p g ⟨hc, hv, hd⟩
      dsimp only
      by_cases ht : k ≠ .MapStart
      · simp only [if_pos ht]; exact .throwStd
      simp only [if_neg ht]
      cases old <;> first | exact .ub | exact h4 _ _ _ _ _ hc.loose
    | mmap t =>
      refine (hp.getToken S).bind ?_
      rintro k p g ⟨hc, hv, hd⟩
      dsimp only
      by_cases ht : k ≠ .MapStart
      · simp only [if_pos ht]; exact .throwStd
      simp only [if_neg ht]
      cases old <;> first | exact .ub | exact h4 _ _ _ _ _ hc.loose
    | umap t =>
      refine (hp.getToken S).bind ?_
      rintro k p g ⟨hc, hv, hd⟩
      dsimp only
      by_cases ht : k ≠ .MapStart
      · simp only [if_pos ht]; exact .throwStd
      simp only [if_neg ht]
      cases old <;> first | exact .ub | exact h4 _ _ _ _ _ hc.loose
    | opt t => exact (h1 _ _ _ _ hp).bind fun x p g hx => .ok hx fun _ => rfl
    | uptr t =>
      refine (hp.getToken S).bind ?_
      rintro k p g ⟨hc, hv, hd⟩
      dsimp only
      by_cases hn : o.isNull p.inner = true
      · rw [if_pos hn]
        refine Sim.congr_some (A' := fun p' => do let s ← o'.ignoreData p'.inner; return (.null, { p' with inner := s })) ?_ ?_
        · intro q hq
          subst hq
          rw [if_pos (by rw [S.isNull _ _ hc.inner]; exact hn)]
        · exact Sim.of1 (hc.inner1 (S.ignoreData _ _ hc.inner (.inr hn))) fun _ _ h => h.loose
      · rw [if_neg hn]
        refine Sim.congr_some (A' := fun p' => do
          let (v, p) ← Thors.deser o' env cfg t (t.default env) (p'.pushBackToken k)
          return (.ptr v, p)) ?_ ?_
        · intro q hq
          subst hq
          rw [if_neg (by rw [S.isNull _ _ hc.inner]; exact hn)]
        · exact (Sim.pushed (h1 _ _ _ _ (hc.push hv hd))).bind fun x p g hx => .ok hx fun _ => rfl
    | pptr b =>
      refine (hp.getToken S).bind ?_
      rintro k p g ⟨hc, hv, hd⟩
      dsimp only
      by_cases hn : o.isNull p.inner = true
      · rw [if_pos hn]
        refine Sim.congr_some (A' := fun p' => do let s ← o'.ignoreData p'.inner; return (.null, { p' with inner := s })) ?_ ?_
        · intro q hq
          subst hq
          rw [if_pos (by rw [S.isNull _ _ hc.inner]; exact hn)]
        · exact Sim.of1 (hc.inner1 (S.ignoreData _ _ hc.inner (.inr hn))) fun _ _ h => h.loose
      · rw [if_neg hn]
        refine Sim.congr_some (fun q hq => if_neg (by subst hq; rw [S.isNull _ _ hc.inner]; exact hn)) ?_
        · refine (Sim.pushed ((hc.push hv hd).polyName S _)).bind ?_
          rintro name p g ⟨hp, -⟩
          dsimp only
          cases env.registry.lookup name with
          | none => exact .throwStd
          | some c =>
            dsimp only
            by_cases hdv : env.derives c b = false
            · simp only [if_pos hdv]; exact .ub
            simp only [if_neg hdv]
            cases env.defs c <;> first | exact .ub | exact (h2 _ _ _ _ hp.pre).bind fun x p g hx => .ok hx fun _ => rfl
    | named i =>
      dsimp only
      cases env.defs i with
      | cls d => exact h2 _ _ _ _ hp
      | tuple ts =>
        dsimp only
        refine (hp.getToken S).bind ?_
        rintro k p g ⟨hc, hv, hd⟩
        dsimp only
        by_cases ht : k ≠ .ArrayStart
        · simp only [if_pos ht]; exact .throwStd
        simp only [if_neg ht]
        cases old <;> first | exact .ub | exact h5 _ _ _ _ _ hc.loose
      | enum table =>
        dsimp only
        refine (hp.getToken S).bind ?_
        rintro t p g ⟨hc, hv, hd⟩
        dsimp only
        by_cases ht : t ≠ .Value
        · simp only [if_pos ht]; exact .throwStd
        simp only [if_neg ht]
        refine (hc.lift (S.getStr _ _ hc.inner (hv (by simpa using ht)))).bind ?_
        rintro s p g hc
        dsimp only
        cases enumOf table s with
        | none => exact .throwStd
        | some v => exact .ok hc.loose fun _ => rfl
      | variant alts =>
        dsimp only
        refine (hp.polyName S _).bind ?_
        rintro name p g ⟨hp, hpd⟩
        dsimp only
        cases pickAlt env cfg (polyMarker env cfg.marker (alts.headD 0)) name alts with
        | some c =>
          dsimp only
          cases env.defs c <;> first | exact .ub | exact (h2 _ _ _ _ hp.pre).bind fun x p g hx => .ok hx fun _ => rfl
        | none => exact Sim.bind1 (hp.ignore S _ hw hpd) fun p g hp => .ok hp fun _ => rfl
  · intro deserMembers h3 d old p g hp
    refine Sim.congr (fun q => Thors.deserClass.eq_def o' env cfg d old q) ?_
    refine (hp.getToken S).bind ?_
    rintro k p g ⟨hc, hv, hd⟩
    dsimp only
    by_cases ht : k ≠ .MapStart
    · simp only [if_pos ht]; exact .throwStd
    simp only [if_neg ht]
    exact h3 _ _ _ _ _ hc.loose
  · intro deser deserMembers h1 h3 d found old p g hp
    refine Sim.congr (fun q => Thors.deserMembers.eq_def o' env cfg d found old q) ?_
    refine (hp.pre.getToken S).bind ?_
    rintro k p g ⟨hc, hv, hd⟩
    dsimp only
    by_cases ht : k = .MapEnd
    · simp only [if_pos ht]
      by_cases he : cfg.strict = .Exact ∧ d.heed found = false
      · simp only [if_pos he]; exact .throwStd
      · simp only [if_neg he]; exact .ok hc.loose fun _ => rfl
    simp only [if_neg ht]
    refine (hc.lift (S.getKey _ _ hc.inner)).bind ?_
    rintro key p g hc
    dsimp only
    cases d.find key with
    | none => exact Sim.bind1 (hc.ignore S _ hw) fun p g hp => h3 _ _ _ _ _ hp.loose
    | some slot =>
      dsimp only
      cases old.field slot.path slot.index with
      | none => exact .ub
      | some w => exact (h1 _ _ _ _ hc.pre).bind fun x p g hx => h3 _ _ _ _ _ hx
  · intro deser deserDict h1 h4 kind t kvs p g hp
    refine Sim.congr (fun q => Thors.deserDict.eq_def o' env cfg kind t kvs q) ?_
    refine (hp.pre.getToken S).bind ?_
    rintro k p g ⟨hc, hv, hd⟩
    dsimp only
    by_cases ht : k = .MapEnd
    · simp only [if_pos ht]; exact .ok hc.loose fun _ => rfl
    simp only [if_neg ht]
    refine (hc.lift (S.getKey _ _ hc.inner)).bind ?_
    rintro key p g hc
    dsimp only
    refine (h1 _ _ _ _ hc.pre).bind ?_
    intro x p g hx
    exact h4 _ _ _ _ _ hx
  · intro deser deserFix h1 h5 tyAt i vs p g hp
    refine Sim.congr (fun q => Thors.deserFix.eq_def o' env cfg tyAt i vs q) ?_
    refine (hp.pre.getToken S).bind ?_
    rintro k p g ⟨hc, hv, hd⟩
    dsimp only
    by_cases ht : k = .ArrayEnd
    · simp only [if_pos ht]; exact .ok hc.loose fun _ => rfl
    simp only [if_neg ht]
    cases tyAt i with
    | none => exact .ub
    | some t =>
      cases vs[i]? with
      | none => exact .ub
      | some w => exact (Sim.pushed (h1 _ _ _ _ (hc.push hv hd))).bind fun x p g hx => h5 _ _ _ _ _ hx
  · intro deser deserVec h1 h6 c t vs p g hp
    refine Sim.congr (fun q => Thors.deserVec.eq_def o' env cfg c t vs q) ?_
    refine (hp.pre.getToken S).bind ?_
    rintro k p g ⟨hc, hv, hd⟩
    dsimp only
    by_cases ht : k = .ArrayEnd
    · simp only [if_pos ht]; exact .ok hc.loose fun _ => rfl
    simp only [if_neg ht]
    exact (Sim.pushed (h1 _ _ _ _ (hc.push hv hd))).bind fun x p g hx => h6 _ _ _ _ _ hx

/-- What the first parser imports, the second imports too, unless it is left behind. -/
theorem import_sim_or (S : SimOps o o' w J V D) (env : Env) (cfg : Cfg) (hw : cfg.strict = .Weak → w) (ty : Ty) (old : Val) {s : σ} {s' : σ'}
    (h : J s (some s')) {v : Val} {q : PI σ} (e : importValue o env cfg ty old (PI.init s) = .ok (v, q)) :
    (∃ q', importValue o' env cfg ty old (PI.init s') = .ok (v, q') ∧ J q.inner (some q'.inner)) ∨ (J q.inner none ∧ D q.inner none) := by
  have hs : Sim (fun _ p g => SClean J p g ∧ D p.inner (g.map PI.inner)) (importValue o env cfg ty old (PI.init s)) (some (PI.init s')) (importValue o' env cfg ty old) := by
    have hp : SPre J V D (PI.init s) (some (PI.init s')) := ⟨h, fun p' hp => (by cases hp; exact ⟨rfl, rfl⟩), rfl, by simp [PI.init], by simp [PI.init]⟩
    unfold importValue
    refine (hp.getToken S).bind ?_
    rintro k p g ⟨hc, hv, hd⟩
    dsimp only
    by_cases ht : k ≠ .DocStart
    · simp only [if_pos ht]; exact .throwStd
    simp only [if_neg ht]
    refine (deser_sim S env cfg hw _ _ _ _ hc.pre).bind ?_
    rintro v p g hl
    dsimp only
    refine ((SLoose.pre hl).getToken S).bind ?_
    rintro k p g ⟨hc, hv, hd⟩
    dsimp only
    by_cases ht : k ≠ .DocEnd
    · simp only [if_pos ht]; exact .throwStd
    simp only [if_neg ht]
    exact .ok ⟨hc, hd (by simpa using ht)⟩ fun _ => rfl
  obtain ⟨g, ⟨hc, hn⟩, hg⟩ := hs _ _ e
  cases g with
  | none => exact .inr ⟨hc.inner, hn⟩
  | some q' =>
    obtain ⟨x, e1, e2⟩ := hg q' rfl
    cases e1
    exact .inl ⟨q', e2, hc.inner⟩

/-- If the end of the document is not reached alone: what the first parser imports, the second imports too, and ends in a related state. -/
theorem import_sim (S : SimOps o o' w J V fun _ g => g ≠ none) (env : Env) (cfg : Cfg) (hw : cfg.strict = .Weak → w) (ty : Ty) (old : Val) {s : σ} {s' : σ'}
    (h : J s (some s')) {v : Val} {q : PI σ} (e : importValue o env cfg ty old (PI.init s) = .ok (v, q)) :
    ∃ q', importValue o' env cfg ty old (PI.init s') = .ok (v, q') ∧ J q.inner (some q'.inner) := by
  rcases import_sim_or S env cfg hw ty old h e with h | ⟨-, h⟩
  · exact h
  · exact absurd rfl h

end
end Thors
