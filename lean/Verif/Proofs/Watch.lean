import Verif.Model.Deser
/-
Invariants of the concrete parser along an import.
-/
namespace Thors
open Lean.Order StrIn

/-- Whatever the run returns satisfies `P` (nothing is said of exceptions and undefined behaviour). -/
def Yields {α : Type} (P : α → Prop) (r : Res α) : Prop := ∀ x, r = .ok x → P x

namespace Yields
variable {α β : Type} {P : α → Prop} {Q : β → Prop}

theorem ok {a : α} (h : P a) : Yields P (.ok a) := by intro x e; cases e; exact h
theorem throw {e : Exc} : Yields P (.throw e) := by intro x h; cases h
theorem throwStd : Yields P throwStd := by intro x h; cases h
theorem ub : Yields P .ub := by intro x h; cases h
theorem bind {r : Res α} {f : α → Res β} (h : Yields P r) (h2 : ∀ a, P a → Yields Q (f a)) : Yields Q (r >>= f) := by
  cases r with
  | ok a => exact h2 a (h a rfl)
  | throw e => exact throw
  | ub => exact ub
theorem mono {P' : α → Prop} {r : Res α} (h : Yields P r) (h2 : ∀ a, P a → P' a) : Yields P' r := fun x e => h2 x (h x e)
theorem admissible (P : α → Prop) : Lean.Order.admissible (fun r : Res α => Yields P r) :=
  admissible_flatOrder (b := Res.ub) _ ub
end Yields

/-- An invariant `I` of the concrete parser, the tokens `T` it then gives, and `V`: a value is current. -/
structure Watch {σ : Type} (o : POps σ) (I V : σ → Prop) (T : Tok → Prop) : Prop where
  next : ∀ s, I s → Yields (fun x => I x.2 ∧ T x.1 ∧ (x.1 = .Value → V x.2)) (o.next s)
  getKey : ∀ s, I s → Yields (fun x => I x.2) (o.getKey s)
  getInt : ∀ k s, I s → V s → Yields (fun x => I x.2) (o.getInt k s)
  getFlt : ∀ f s, I s → V s → Yields (fun x => I x.2) (o.getFlt f s)
  getBool : ∀ s, I s → V s → Yields (fun x => I x.2) (o.getBool s)
  getStr : ∀ s, I s → V s → Yields (fun x => I x.2) (o.getStr s)
  ignoreData : ∀ s, I s → Yields I (o.ignoreData s)
  error : T .Error
  mapStart : T .MapStart

section
variable {σ : Type} {o : POps σ} {I V : σ → Prop} {T : Tok → Prop}

/-- At most one token is pushed back; a value only if it is current. -/
structure WPre (I V : σ → Prop) (T : Tok → Prop) (p : PI σ) : Prop where
  inner : I p.inner
  pb2 : p.pb2 = .Error
  tok : T p.pb1
  val : p.pb1 = .Value → V p.inner

/-- Nothing is pushed back. -/
structure WClean (I : σ → Prop) (p : PI σ) : Prop where
  inner : I p.inner
  pb1 : p.pb1 = .Error
  pb2 : p.pb2 = .Error

/-- A token other than a value may be pushed back. -/
structure WLoose (I : σ → Prop) (T : Tok → Prop) (p : PI σ) : Prop where
  inner : I p.inner
  pb2 : p.pb2 = .Error
  tok : T p.pb1
  val : p.pb1 ≠ .Value

theorem WLoose.pre {p : PI σ} (h : WLoose I T p) : WPre I V T p := ⟨h.inner, h.pb2, h.tok, fun e => absurd e h.val⟩

theorem WClean.loose (W : Watch o I V T) {p : PI σ} (h : WClean I p) : WLoose I T p :=
  ⟨h.inner, h.pb2, by rw [h.pb1]; exact W.error, by rw [h.pb1]; simp⟩

theorem WClean.pre (W : Watch o I V T) {p : PI σ} (h : WClean I p) : WPre I V T p :=
  ⟨h.inner, h.pb2, by rw [h.pb1]; exact W.error, by rw [h.pb1]; simp⟩

theorem WPre.getToken (W : Watch o I V T) {p : PI σ} (h : WPre I V T p) :
    Yields (fun x => WClean I x.2 ∧ T x.1 ∧ (x.1 = .Value → V x.2.inner)) (p.getToken o) := by
  unfold PI.getToken
  rw [if_neg (by simp [h.pb2])]
  split
  · exact .ok ⟨⟨h.inner, rfl, h.pb2⟩, h.tok, h.val⟩
  · rename_i h1
    refine (W.next _ h.inner).bind fun x hx => .ok ⟨⟨hx.1, ?_, h.pb2⟩, hx.2.1, hx.2.2⟩
    simpa using h1

theorem WClean.push {p : PI σ} {k : Tok} (h : WClean I p) (ht : T k) (hv : k = .Value → V p.inner) : WPre I V T (p.pushBackToken k) := by
  unfold PI.pushBackToken
  rw [if_pos h.pb1]
  exact ⟨h.inner, h.pb2, ht, hv⟩

theorem WClean.lift {p : PI σ} {α : Type} {r : Res (α × σ)} (h : WClean I p) (hr : Yields (fun x => I x.2) r) : Yields (fun x => WClean I x.2) (p.lift r) :=
  hr.bind fun _ hx => .ok ⟨hx, h.pb1, h.pb2⟩

theorem ignore_watch (W : Watch o I V T) :
    (∀ s, I s → Yields I (ignoreTheValue o s)) ∧ (∀ s, I s → Yields I (ignoreTheArray o s)) ∧ (∀ s, I s → Yields I (ignoreTheMap o s)) := by
  refine ignoreTheValue.mutual_fixpoint_induct o (fun f => ∀ s, I s → Yields I (f s)) (fun f => ∀ s, I s → Yields I (f s)) (fun f => ∀ s, I s → Yields I (f s))
    ?_ ?_ ?_ ?_ ?_ ?_
  · exact admissible_pi _ fun s => admissible_pi _ fun _ => admissible_apply (fun _ r => Yields I r) s (Yields.admissible _)
  · exact admissible_pi _ fun s => admissible_pi _ fun _ => admissible_apply (fun _ r => Yields I r) s (Yields.admissible _)
  · exact admissible_pi _ fun s => admissible_pi _ fun _ => admissible_apply (fun _ r => Yields I r) s (Yields.admissible _)
  · intro fa fm ha hm s hs
    refine (W.next s hs).bind ?_
    rintro ⟨t, s⟩ ⟨h1, h2, h3⟩
    cases t <;> first | exact .throwStd | exact W.ignoreData s h1 | exact hm s h1 | exact ha s h1
  · intro fa fm ha hm s hs
    refine (W.next s hs).bind ?_
    rintro ⟨t, s⟩ ⟨h1, h2, h3⟩
    cases t <;> first
      | exact .throwStd
      | exact .ok h1
      | exact (W.ignoreData s h1).bind fun s h => ha s h
      | exact (hm s h1).bind fun s h => ha s h
      | exact (ha s h1).bind fun s h => ha s h
  · intro fv fm hv hm s hs
    refine (W.next s hs).bind ?_
    rintro ⟨t, s⟩ ⟨h1, h2, h3⟩
    simp only
    split
    · exact .ok h1
    · refine (W.ignoreData s h1).bind fun s h => ?_
      split
      · exact .throwStd
      · exact (hv s h).bind fun s h => hm s h

theorem WClean.ignore (W : Watch o I V T) (st : ParseType) {p : PI σ} (h : WClean I p) : Yields (WClean I) (p.ignoreValue o st) := by
  unfold PI.ignoreValue
  split
  · exact .throwStd
  · exact ((ignore_watch W).1 _ h.inner).bind fun s hs => .ok ⟨hs, h.pb1, h.pb2⟩

theorem WLoose.ignore (W : Watch o I V T) (st : ParseType) {p : PI σ} (h : WLoose I T p) : Yields (WLoose I T) (p.ignoreValue o st) := by
  unfold PI.ignoreValue
  split
  · exact .throwStd
  · exact ((ignore_watch W).1 _ h.inner).bind fun s hs => .ok ⟨hs, h.pb2, h.tok, h.val⟩

theorem WPre.polyName (W : Watch o I V T) (mk : Bytes) {p : PI σ} (h : WPre I V T p) : Yields (fun x => WLoose I T x.2) (polyClassName o mk p) := by
  unfold polyClassName
  refine (h.getToken W).bind ?_
  rintro ⟨t, p⟩ ⟨hc, -, -⟩
  dsimp only
  split
  · exact .throwStd
  refine ((hc.pre W).getToken W).bind ?_
  rintro ⟨t, p⟩ ⟨hc, -, -⟩
  dsimp only
  split
  · exact .throwStd
  refine (hc.lift (W.getKey _ hc.inner)).bind ?_
  rintro ⟨key, p⟩ hc
  dsimp only at hc ⊢
  split
  · exact .throwStd
  refine ((hc.pre W).getToken W).bind ?_
  rintro ⟨t, p⟩ ⟨hc, -, hv⟩
  dsimp only at hc hv ⊢
  split
  · exact .throwStd
  · rename_i ht
    refine (hc.lift (W.getStr _ hc.inner (hv (by simpa using ht)))).bind ?_
    rintro ⟨name, p⟩ hc
    unfold PI.pushBackToken
    rw [if_pos hc.pb1]
    exact .ok ⟨hc.inner, hc.pb2, W.mapStart, by simp⟩

theorem adm3 {A B C D : Type} (P : D → Prop) (H : A → B → C → Prop) :
    admissible (fun f : A → B → C → Res D => ∀ a b c, H a b c → Yields P (f a b c)) :=
  admissible_pi _ fun a => admissible_pi _ fun b => admissible_pi _ fun c => admissible_pi _ fun _ =>
    admissible_apply (fun (_ : A) (f : B → C → Res D) => Yields P (f b c)) a
      (admissible_apply (fun (_ : B) (f : C → Res D) => Yields P (f c)) b (admissible_apply (fun (_ : C) (r : Res D) => Yields P r) c (Yields.admissible _)))

theorem adm4 {A B C D E : Type} (P : E → Prop) (H : A → B → C → D → Prop) :
    admissible (fun f : A → B → C → D → Res E => ∀ a b c d, H a b c d → Yields P (f a b c d)) :=
  admissible_pi _ fun a => admissible_pi _ fun b => admissible_pi _ fun c => admissible_pi _ fun d => admissible_pi _ fun _ =>
    admissible_apply (fun (_ : A) (f : B → C → D → Res E) => Yields P (f b c d)) a
      (admissible_apply (fun (_ : B) (f : C → D → Res E) => Yields P (f c d)) b
        (admissible_apply (fun (_ : C) (f : D → Res E) => Yields P (f d)) c (admissible_apply (fun (_ : D) (r : Res E) => Yields P r) d (Yields.admissible _))))

set_option maxHeartbeats 1000000 in
theorem deser_watch (W : Watch o I V T) (env : Env) (cfg : Cfg) :
    ∀ ty old p, WPre I V T p → Yields (fun x => WLoose I T x.2) (deser o env cfg ty old p) := by
  refine (deser.mutual_fixpoint_induct o env cfg
    (fun f => ∀ ty old p, WPre I V T p → Yields (fun x => WLoose I T x.2) (f ty old p))
    (fun f => ∀ d old p, WPre I V T p → Yields (fun x => WLoose I T x.2) (f d old p))
    (fun f => ∀ d found old p, WLoose I T p → Yields (fun x => WLoose I T x.2) (f d found old p))
    (fun f => ∀ kind t kvs p, WLoose I T p → Yields (fun x => WLoose I T x.2) (f kind t kvs p))
    (fun f => ∀ tyAt i vs p, WLoose I T p → Yields (fun x => WLoose I T x.2) (f tyAt i vs p))
    (fun f => ∀ k t vs p, WLoose I T p → Yields (fun x => WLoose I T x.2) (f k t vs p))
    ?_ ?_ ?_ ?_ ?_ ?_ ?_ ?_ ?_ ?_ ?_ ?_).1
  · exact adm3 _ (fun _ _ p => WPre I V T p)
  · exact adm3 _ (fun _ _ p => WPre I V T p)
  · exact adm4 _ (fun _ _ _ p => WLoose I T p)
  · exact adm4 _ (fun _ _ _ p => WLoose I T p)
  · exact adm4 _ (fun _ _ _ p => WLoose I T p)
  · exact adm4 _ (fun _ _ _ p => WLoose I T p)
  · intro deser deserClass deserDict deserFix deserVec h1 h2 h4 h5 h6 ty old p hp
    cases ty with
    | int k =>
      refine (hp.getToken W).bind ?_
      rintro ⟨t, p⟩ ⟨hc, ht, hv⟩
      dsimp only at hc ht hv ⊢
      split
      · exact .throwStd
      rename_i hk
      exact (hc.lift (W.getInt k _ hc.inner (hv (by simpa using hk)))).bind fun x hx => .ok (WClean.loose W hx)
    | flt f =>
      refine (hp.getToken W).bind ?_
      rintro ⟨t, p⟩ ⟨hc, ht, hv⟩
      dsimp only at hc ht hv ⊢
      split
      · exact .throwStd
      rename_i hk
      exact (hc.lift (W.getFlt f _ hc.inner (hv (by simpa using hk)))).bind fun x hx => .ok (WClean.loose W hx)
    | bool =>
      refine (hp.getToken W).bind ?_
      rintro ⟨t, p⟩ ⟨hc, ht, hv⟩
      dsimp only at hc ht hv ⊢
      split
      · exact .throwStd
      rename_i hk
      exact (hc.lift (W.getBool _ hc.inner (hv (by simpa using hk)))).bind fun x hx => .ok (WClean.loose W hx)
    | str =>
      refine (hp.getToken W).bind ?_
      rintro ⟨t, p⟩ ⟨hc, ht, hv⟩
      dsimp only at hc ht hv ⊢
      split
      · exact .throwStd
      rename_i hk
      exact (hc.lift (W.getStr _ hc.inner (hv (by simpa using hk)))).bind fun x hx => .ok (WClean.loose W hx)
    | seq k t =>
      refine (hp.getToken W).bind ?_
      rintro ⟨t, p⟩ ⟨hc, ht, hv⟩
      dsimp only at hc ht hv ⊢
      split
      · exact .throwStd
      split
      · exact h6 _ _ _ _ (hc.loose W)
      · exact .ub
    | arr n t =>
      refine (hp.getToken W).bind ?_
      rintro ⟨t, p⟩ ⟨hc, ht, hv⟩
      dsimp only at hc ht hv ⊢
      split
      · exact .throwStd
      split
      · exact h5 _ _ _ _ (hc.loose W)
      · exact .ub
    | smap t =>
      refine (hp.getToken W).bind ?_
      rintro ⟨t, p⟩ ⟨hc, ht, hv⟩
      dsimp only at hc ht hv ⊢
      split
      · exact .throwStd
      split
      · exact h4 _ _ _ _ (hc.loose W)
      · exact .ub
    | mmap t =>
      refine (hp.getToken W).bind ?_
      rintro ⟨t, p⟩ ⟨hc, ht, hv⟩
      dsimp only at hc ht hv ⊢
      split
      · exact .throwStd
      split
      · exact h4 _ _ _ _ (hc.loose W)
      · exact .ub
    | umap t =>
      refine (hp.getToken W).bind ?_
      rintro ⟨t, p⟩ ⟨hc, ht, hv⟩
      dsimp only at hc ht hv ⊢
      split
      · exact .throwStd
      split
      · exact h4 _ _ _ _ (hc.loose W)
      · exact .ub
    | opt t => exact (h1 _ _ _ hp).bind fun x hx => .ok hx
    | uptr t =>
      refine (hp.getToken W).bind ?_
      rintro ⟨k, p⟩ ⟨hc, ht, hv⟩
      dsimp only at hc ht hv ⊢
      split
      · exact (W.ignoreData _ hc.inner).bind fun s hs => .ok (WClean.loose W ⟨hs, hc.pb1, hc.pb2⟩)
      · exact (h1 _ _ _ (hc.push ht hv)).bind fun x hx => .ok hx
    | pptr b =>
      refine (hp.getToken W).bind ?_
      rintro ⟨k, p⟩ ⟨hc, ht, hv⟩
      dsimp only at hc ht hv ⊢
      split
      · exact (W.ignoreData _ hc.inner).bind fun s hs => .ok (WClean.loose W ⟨hs, hc.pb1, hc.pb2⟩)
      · refine ((hc.push ht hv).polyName W _).bind ?_
        rintro ⟨name, p⟩ hp
        dsimp only at hp ⊢
        split
        · exact .throwStd
        split
        · exact .ub
        split
        · exact (h2 _ _ _ hp.pre).bind fun x hx => .ok hx
        · exact .ub
    | named i =>
      dsimp only
      split
      · exact h2 _ _ _ hp
      · refine (hp.getToken W).bind ?_
        rintro ⟨t, p⟩ ⟨hc, ht, hv⟩
        dsimp only at hc ht hv ⊢
        split
        · exact .throwStd
        split
        · exact h5 _ _ _ _ (hc.loose W)
        · exact .ub
      · refine (hp.getToken W).bind ?_
        rintro ⟨t, p⟩ ⟨hc, ht, hv⟩
        dsimp only at hc ht hv ⊢
        split
        · exact .throwStd
        rename_i hk
        refine (hc.lift (W.getStr _ hc.inner (hv (by simpa using hk)))).bind ?_
        rintro ⟨s, p⟩ hc
        dsimp only at hc ⊢
        split
        · exact .ok (hc.loose W)
        · exact .throwStd
      · refine (hp.polyName W _).bind ?_
        rintro ⟨name, p⟩ hp
        dsimp only at hp ⊢
        split
        · split
          · exact (h2 _ _ _ hp.pre).bind fun x hx => .ok hx
          · exact .ub
        · exact (hp.ignore W _).bind fun p hp => .ok hp
  · intro deserMembers h3 d old p hp
    refine (hp.getToken W).bind ?_
    rintro ⟨t, p⟩ ⟨hc, ht, hv⟩
    dsimp only at hc ht hv ⊢
    split
    · exact .throwStd
    · exact h3 _ _ _ _ (hc.loose W)
  · intro deser deserMembers h1 h3 d found old p hp
    refine (hp.pre.getToken W).bind ?_
    rintro ⟨t, p⟩ ⟨hc, ht, hv⟩
    dsimp only at hc ht hv ⊢
    split
    · split
      · exact .throwStd
      · exact .ok (hc.loose W)
    refine (hc.lift (W.getKey _ hc.inner)).bind ?_
    rintro ⟨key, p⟩ hc
    dsimp only at hc ⊢
    split
    · exact (hc.ignore W _).bind fun p hc => h3 _ _ _ _ (hc.loose W)
    split
    · exact .ub
    · exact (h1 _ _ _ (hc.pre W)).bind fun x hx => h3 _ _ _ _ hx
  · intro deser deserDict h1 h4 kind t kvs p hp
    refine (hp.pre.getToken W).bind ?_
    rintro ⟨t, p⟩ ⟨hc, ht, hv⟩
    dsimp only at hc ht hv ⊢
    split
    · exact .ok (hc.loose W)
    refine (hc.lift (W.getKey _ hc.inner)).bind ?_
    rintro ⟨key, p⟩ hc
    exact (h1 _ _ _ (hc.pre W)).bind fun x hx => h4 _ _ _ _ hx
  · intro deser deserFix h1 h5 tyAt i vs p hp
    refine (hp.pre.getToken W).bind ?_
    rintro ⟨t, p⟩ ⟨hc, ht, hv⟩
    dsimp only at hc ht hv ⊢
    split
    · exact .ok (hc.loose W)
    split
    · exact (h1 _ _ _ (hc.push ht hv)).bind fun x hx => h5 _ _ _ _ hx
    · exact .ub
  · intro deser deserVec h1 h6 k t vs p hp
    refine (hp.pre.getToken W).bind ?_
    rintro ⟨t, p⟩ ⟨hc, ht, hv⟩
    dsimp only at hc ht hv ⊢
    split
    · exact .ok (hc.loose W)
    · exact (h1 _ _ _ (hc.push ht hv)).bind fun x hx => h6 _ _ _ _ hx

/-- The invariant holds after an import. -/
theorem import_watch (W : Watch o I V T) (env : Env) (cfg : Cfg) (ty : Ty) (old : Val) {s : σ} (h : I s) :
    Yields (fun x => I x.2.inner ∧ T .DocEnd) (importValue o env cfg ty old (PI.init s)) := by
  unfold importValue
  refine (WPre.getToken W (p := PI.init s) ⟨h, rfl, W.error, by simp [PI.init]⟩).bind ?_
  rintro ⟨t, p⟩ ⟨hc, -, -⟩
  dsimp only at hc ⊢
  split
  · exact .throwStd
  refine (deser_watch W env cfg ty old p (hc.pre W)).bind ?_
  rintro ⟨v, p⟩ hl
  refine ((WLoose.pre hl).getToken W).bind ?_
  rintro ⟨t, p⟩ ⟨hc, ht, -⟩
  dsimp only at hc ht ⊢
  split
  · exact .throwStd
  · rename_i h
    refine .ok ⟨hc.inner, ?_⟩
    simp only [ne_eq, Classical.not_not] at h
    exact h ▸ ht

/-- If the parser never gives document end, the import does not succeed. -/
theorem import_never (W : Watch o I V T) (hT : ¬ T .DocEnd) (env : Env) (cfg : Cfg) (ty : Ty) (old : Val) {s : σ} (h : I s) (x : Val × PI σ) :
    importValue o env cfg ty old (PI.init s) ≠ .ok x := fun e => hT ((import_watch W env cfg ty old h) x e).2

end
end Thors
