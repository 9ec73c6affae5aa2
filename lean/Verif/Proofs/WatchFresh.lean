import Verif.Proofs.Watch
/-
Invariants of the concrete parser along an import, where skipping is only allowed right after a token.
-/
namespace Thors
open Lean.Order StrIn

/-- An invariant `I` of the concrete parser, the tokens `T` it then gives, `F`: a token was just given, `V`: that token was a value,
`A`: a key was given, `B`: the value of a member was given. Skipping is considered if `w`. -/
structure WatchF {σ : Type} (o : POps σ) (w : Prop) (I F V A B : σ → Prop) (T : Tok → Prop) : Prop where
  next : ∀ s, I s → Yields (fun x => I x.2 ∧ F x.2 ∧ T x.1 ∧ (x.1 = .Value → V x.2) ∧ (x.1 = .Key → A x.2)) (o.next s)
  nextA : ∀ s, I s → A s → Yields (fun x => x.1 = .Value → B x.2) (o.next s)
  nextB : ∀ s, I s → B s → Yields (fun x => x.1 ≠ .Value ∧ x.1 ≠ .MapStart ∧ x.1 ≠ .ArrayStart) (o.next s)
  getKey : ∀ s, I s → F s → Yields (fun x => I x.2 ∧ (A s → A x.2)) (o.getKey s)
  getInt : ∀ k s, I s → F s → V s → Yields (fun x => I x.2) (o.getInt k s)
  getFlt : ∀ f s, I s → F s → V s → Yields (fun x => I x.2) (o.getFlt f s)
  getBool : ∀ s, I s → F s → V s → Yields (fun x => I x.2) (o.getBool s)
  getStr : ∀ s, I s → F s → V s → Yields (fun x => I x.2 ∧ (B s → B x.2)) (o.getStr s)
  skip : w → ∀ s, I s → F s → Yields I (o.ignoreData s)
  null : ∀ s, I s → F s → o.isNull s = true → Yields I (o.ignoreData s)
  error : T .Error
  mapStart : T .MapStart

section
variable {σ : Type} {o : POps σ} {w : Prop} {I F V A B : σ → Prop} {T : Tok → Prop}

/-- At most one token is pushed back. -/
structure FTok (I : σ → Prop) (T : Tok → Prop) (p : PI σ) : Prop where
  inner : I p.inner
  pb2 : p.pb2 = .Error
  tok : T p.pb1

/-- At most one token is pushed back; it is the one just given. -/
structure FPre (I F V : σ → Prop) (T : Tok → Prop) (p : PI σ) : Prop where
  inner : I p.inner
  pb2 : p.pb2 = .Error
  tok : T p.pb1
  fresh : p.pb1 ≠ .Error → F p.inner
  val : p.pb1 = .Value → V p.inner

/-- Nothing is pushed back. -/
structure FClean (I : σ → Prop) (p : PI σ) : Prop where
  inner : I p.inner
  pb1 : p.pb1 = .Error
  pb2 : p.pb2 = .Error

theorem FPre.ftok {p : PI σ} (h : FPre I F V T p) : FTok I T p := ⟨h.inner, h.pb2, h.tok⟩

theorem FClean.pre (W : WatchF o w I F V A B T) {p : PI σ} (h : FClean I p) : FPre I F V T p :=
  ⟨h.inner, h.pb2, by rw [h.pb1]; exact W.error, fun e => absurd h.pb1 e, by rw [h.pb1]; simp⟩

theorem FTok.getToken (W : WatchF o w I F V A B T) {p : PI σ} (h : FTok I T p) : Yields (fun x => FClean I x.2 ∧ T x.1) (p.getToken o) := by
  unfold PI.getToken
  rw [if_neg (by simp [h.pb2])]
  split
  · exact .ok ⟨⟨h.inner, rfl, h.pb2⟩, h.tok⟩
  · rename_i h1
    refine (W.next _ h.inner).bind fun x hx => .ok ⟨⟨hx.1, ?_, h.pb2⟩, hx.2.2.1⟩
    simpa using h1

theorem FPre.getToken (W : WatchF o w I F V A B T) {p : PI σ} (h : FPre I F V T p) :
    Yields (fun x => FClean I x.2 ∧ T x.1 ∧ F x.2.inner ∧ (x.1 = .Value → V x.2.inner)) (p.getToken o) := by
  unfold PI.getToken
  rw [if_neg (by simp [h.pb2])]
  split
  · next h1 => exact .ok ⟨⟨h.inner, rfl, h.pb2⟩, h.tok, h.fresh h1, h.val⟩
  · rename_i h1
    refine (W.next _ h.inner).bind fun x hx => .ok ⟨⟨hx.1, ?_, h.pb2⟩, hx.2.2.1, hx.2.1, hx.2.2.2.1⟩
    simpa using h1

theorem FClean.getToken (W : WatchF o w I F V A B T) {p : PI σ} (h : FClean I p) :
    Yields (fun x => FClean I x.2 ∧ F x.2.inner ∧ (x.1 = .Value → V x.2.inner ∧ (A p.inner → B x.2.inner)) ∧ (x.1 = .Key → A x.2.inner)) (p.getToken o) := by
  unfold PI.getToken
  rw [if_neg (by simp [h.pb2]), if_neg (by simp [h.pb1])]
  intro x hx
  obtain ⟨⟨t, s⟩, h1, h2⟩ := Res.bind_eq_ok.1 hx
  have h3 := W.next _ h.inner _ h1
  simp only [Res.pure_eq, Res.ok.injEq] at h2
  subst h2
  exact ⟨⟨h3.1, h.pb1, h.pb2⟩, h3.2.1, fun e => ⟨h3.2.2.2.1 e, fun ha => W.nextA _ h.inner ha _ h1 e⟩, h3.2.2.2.2⟩

theorem FClean.push {p : PI σ} {k : Tok} (h : FClean I p) (ht : T k) (hf : F p.inner) (hv : k = .Value → V p.inner) : FPre I F V T (p.pushBackToken k) := by
  unfold PI.pushBackToken
  rw [if_pos h.pb1]
  exact ⟨h.inner, h.pb2, ht, fun _ => hf, hv⟩

theorem FClean.lift {p : PI σ} {α : Type} {r : Res (α × σ)} (h : FClean I p) (hr : Yields (fun x => I x.2) r) : Yields (fun x => FClean I x.2) (p.lift r) :=
  hr.bind fun _ hx => .ok ⟨hx, h.pb1, h.pb2⟩

theorem ignore_watchF (W : WatchF o w I F V A B T) (hw : w) :
    (∀ s, I s → Yields I (ignoreTheValue o s)) ∧ (∀ s, I s → Yields I (ignoreTheArray o s)) ∧ (∀ s, I s → Yields I (ignoreTheMap o s)) := by
  refine ignoreTheValue.mutual_fixpoint_induct o (fun f => ∀ s, I s → Yields I (f s)) (fun f => ∀ s, I s → Yields I (f s)) (fun f => ∀ s, I s → Yields I (f s))
    ?_ ?_ ?_ ?_ ?_ ?_
  · exact admissible_pi _ fun s => admissible_pi _ fun _ => admissible_apply (fun _ r => Yields I r) s (Yields.admissible _)
  · exact admissible_pi _ fun s => admissible_pi _ fun _ => admissible_apply (fun _ r => Yields I r) s (Yields.admissible _)
  · exact admissible_pi _ fun s => admissible_pi _ fun _ => admissible_apply (fun _ r => Yields I r) s (Yields.admissible _)
  · intro fa fm ha hm s hs
    refine (W.next s hs).bind ?_
    rintro ⟨t, s⟩ ⟨h1, h2, -⟩
    cases t <;> first | exact .throwStd | exact W.skip hw s h1 h2 | exact hm s h1 | exact ha s h1
  · intro fa fm ha hm s hs
    refine (W.next s hs).bind ?_
    rintro ⟨t, s⟩ ⟨h1, h2, -⟩
    cases t <;> first
      | exact .throwStd
      | exact .ok h1
      | exact (W.skip hw s h1 h2).bind fun s h => ha s h
      | exact (hm s h1).bind fun s h => ha s h
      | exact (ha s h1).bind fun s h => ha s h
  · intro fv fm hv hm s hs
    refine (W.next s hs).bind ?_
    rintro ⟨t, s⟩ ⟨h1, h2, -⟩
    simp only
    split
    · exact .ok h1
    · refine (W.skip hw s h1 h2).bind fun s h => ?_
      split
      · exact .throwStd
      · exact (hv s h).bind fun s h => hm s h

theorem FClean.ignore {st : ParseType} (W : WatchF o w I F V A B T) (hw : st = .Weak → w) {p : PI σ} (h : FClean I p) : Yields (FClean I) (p.ignoreValue o st) := by
  unfold PI.ignoreValue
  split
  · exact .throwStd
  · next hs => exact ((ignore_watchF W (hw (by simpa using hs))).1 _ h.inner).bind fun s hs => .ok ⟨hs, h.pb1, h.pb2⟩

/-- Inside an object, behind the value of a member, there is nothing to skip. -/
theorem ignore_member (W : WatchF o w I F V A B T) (st : ParseType) {p : PI σ} (h : I p.inner) (hb : B p.inner) : Yields (fun _ => False) (p.ignoreValue o st) := by
  unfold PI.ignoreValue
  split
  · exact .throwStd
  · rw [ignoreTheValue]
    refine Yields.bind (P := fun _ => False) ((W.nextB _ h hb).bind ?_) (fun _ h => h.elim)
    rintro ⟨t, s⟩ ⟨h1, h2, h3⟩
    cases t <;> first | exact .throwStd | exact absurd rfl h1 | exact absurd rfl h2 | exact absurd rfl h3

theorem FPre.polyName (W : WatchF o w I F V A B T) (mk : Bytes) {p : PI σ} (h : FPre I F V T p) :
    Yields (fun x => FTok I T x.2 ∧ B x.2.inner) (polyClassName o mk p) := by
  unfold polyClassName
  refine (h.getToken W).bind ?_
  rintro ⟨t, p⟩ ⟨hc, -, -⟩
  dsimp only
  split
  · exact .throwStd
  refine (hc.getToken W).bind ?_
  rintro ⟨t, p⟩ ⟨hc, hf, -, ha⟩
  dsimp only at hc hf ha ⊢
  split
  · exact .throwStd
  rename_i ht
  replace ha := ha (by simpa using ht)
  refine (Yields.bind (Q := fun (x : Bytes × PI σ) => FClean I x.2 ∧ A x.2.inner) (W.getKey _ hc.inner hf) (fun _ hx => .ok ⟨⟨hx.1, hc.pb1, hc.pb2⟩, hx.2 ha⟩)).bind ?_
  rintro ⟨key, p⟩ ⟨hc, ha⟩
  dsimp only at hc ha ⊢
  split
  · exact .throwStd
  refine (hc.getToken W).bind ?_
  rintro ⟨t, p⟩ ⟨hc, hf, hv, -⟩
  dsimp only at hc hf hv ⊢
  split
  · exact .throwStd
  · rename_i ht
    obtain ⟨hv, hb⟩ := hv (by simpa using ht)
    refine (Yields.bind (Q := fun (x : Bytes × PI σ) => FClean I x.2 ∧ B x.2.inner) (W.getStr _ hc.inner hf hv) (fun _ hx => .ok ⟨⟨hx.1, hc.pb1, hc.pb2⟩, hx.2 (hb ha)⟩)).bind ?_
    rintro ⟨name, p⟩ ⟨hc, hb⟩
    unfold PI.pushBackToken
    rw [if_pos hc.pb1]
    exact .ok ⟨⟨hc.inner, hc.pb2, W.mapStart⟩, hb⟩

set_option maxHeartbeats 1000000 in
theorem deser_watchF {cfg : Cfg} (W : WatchF o w I F V A B T) (hw : cfg.strict = .Weak → w) (env : Env) :
    ∀ ty old p, FPre I F V T p → Yields (fun x => FClean I x.2) (deser o env cfg ty old p) := by
  refine (deser.mutual_fixpoint_induct o env cfg
    (fun f => ∀ ty old p, FPre I F V T p → Yields (fun x => FClean I x.2) (f ty old p))
    (fun f => ∀ d old p, FTok I T p → Yields (fun x => FClean I x.2) (f d old p))
    (fun f => ∀ d found old p, FClean I p → Yields (fun x => FClean I x.2) (f d found old p))
    (fun f => ∀ kind t kvs p, FClean I p → Yields (fun x => FClean I x.2) (f kind t kvs p))
    (fun f => ∀ tyAt i vs p, FClean I p → Yields (fun x => FClean I x.2) (f tyAt i vs p))
    (fun f => ∀ k t vs p, FClean I p → Yields (fun x => FClean I x.2) (f k t vs p))
    ?_ ?_ ?_ ?_ ?_ ?_ ?_ ?_ ?_ ?_ ?_ ?_).1
  · exact adm3 _ (fun _ _ p => FPre I F V T p)
  · exact adm3 _ (fun _ _ p => FTok I T p)
  · exact adm4 _ (fun _ _ _ p => FClean I p)
  · exact adm4 _ (fun _ _ _ p => FClean I p)
  · exact adm4 _ (fun _ _ _ p => FClean I p)
  · exact adm4 _ (fun _ _ _ p => FClean I p)
  · intro deser deserClass deserDict deserFix deserVec h1 h2 h4 h5 h6 ty old p hp
    cases ty with
    | int k =>
      refine (hp.getToken W).bind ?_
      rintro ⟨t, p⟩ ⟨hc, ht, hf, hv⟩
      dsimp only at hc ht hf hv ⊢
      split
      · exact .throwStd
      rename_i hk
      exact (hc.lift (W.getInt k _ hc.inner hf (hv (by simpa using hk)))).bind fun x hx => .ok hx
    | flt f =>
      refine (hp.getToken W).bind ?_
      rintro ⟨t, p⟩ ⟨hc, ht, hf, hv⟩
      dsimp only at hc ht hf hv ⊢
      split
      · exact .throwStd
      rename_i hk
      exact (hc.lift (W.getFlt f _ hc.inner hf (hv (by simpa using hk)))).bind fun x hx => .ok hx
    | bool =>
      refine (hp.getToken W).bind ?_
      rintro ⟨t, p⟩ ⟨hc, ht, hf, hv⟩
      dsimp only at hc ht hf hv ⊢
      split
      · exact .throwStd
      rename_i hk
      exact (hc.lift (W.getBool _ hc.inner hf (hv (by simpa using hk)))).bind fun x hx => .ok hx
    | str =>
      refine (hp.getToken W).bind ?_
      rintro ⟨t, p⟩ ⟨hc, ht, hf, hv⟩
      dsimp only at hc ht hf hv ⊢
      split
      · exact .throwStd
      rename_i hk
      exact (hc.lift ((W.getStr _ hc.inner hf (hv (by simpa using hk))).mono fun _ h => h.1)).bind fun x hx => .ok hx
    | seq k t =>
      refine (hp.getToken W).bind ?_
      rintro ⟨t, p⟩ ⟨hc, -⟩
      dsimp only at hc ⊢
      split
      · exact .throwStd
      split
      · exact h6 _ _ _ _ hc
      · exact .ub
    | arr n t =>
      refine (hp.getToken W).bind ?_
      rintro ⟨t, p⟩ ⟨hc, -⟩
      dsimp only at hc ⊢
      split
      · exact .throwStd
      split
      · exact h5 _ _ _ _ hc
      · exact .ub
    | smap t =>
      refine (hp.getToken W).bind ?_
      rintro ⟨t, p⟩ ⟨hc, -⟩
      dsimp only at hc ⊢
      split
      · exact .throwStd
      split
      · exact h4 _ _ _ _ hc
      · exact .ub
    | mmap t =>
      refine (hp.getToken W).bind ?_
      rintro ⟨t, p⟩ ⟨hc, -⟩
      dsimp only at hc ⊢
      split
      · exact .throwStd
      split
      · exact h4 _ _ _ _ hc
      · exact .ub
    | umap t =>
      refine (hp.getToken W).bind ?_
      rintro ⟨t, p⟩ ⟨hc, -⟩
      dsimp only at hc ⊢
      split
      · exact .throwStd
      split
      · exact h4 _ _ _ _ hc
      · exact .ub
    | opt t => exact (h1 _ _ _ hp).bind fun x hx => .ok hx
    | uptr t =>
      refine (hp.getToken W).bind ?_
      rintro ⟨k, p⟩ ⟨hc, ht, hf, hv⟩
      dsimp only at hc ht hf hv ⊢
      split
      · next hn => exact (W.null _ hc.inner hf hn).bind fun s hs => .ok ⟨hs, hc.pb1, hc.pb2⟩
      · exact (h1 _ _ _ (hc.push ht hf hv)).bind fun x hx => .ok hx
    | pptr b =>
      refine (hp.getToken W).bind ?_
      rintro ⟨k, p⟩ ⟨hc, ht, hf, hv⟩
      dsimp only at hc ht hf hv ⊢
      split
      · next hn => exact (W.null _ hc.inner hf hn).bind fun s hs => .ok ⟨hs, hc.pb1, hc.pb2⟩
      · refine ((hc.push ht hf hv).polyName W _).bind ?_
        rintro ⟨name, p⟩ ⟨hp, -⟩
        dsimp only at hp ⊢
        split
        · exact .throwStd
        split
        · exact .ub
        split
        · exact (h2 _ _ _ hp).bind fun x hx => .ok hx
        · exact .ub
    | named i =>
      dsimp only
      split
      · exact h2 _ _ _ hp.ftok
      · refine (hp.getToken W).bind ?_
        rintro ⟨t, p⟩ ⟨hc, -⟩
        dsimp only at hc ⊢
        split
        · exact .throwStd
        split
        · exact h5 _ _ _ _ hc
        · exact .ub
      · refine (hp.getToken W).bind ?_
        rintro ⟨t, p⟩ ⟨hc, ht, hf, hv⟩
        dsimp only at hc ht hf hv ⊢
        split
        · exact .throwStd
        rename_i hk
        refine (hc.lift ((W.getStr _ hc.inner hf (hv (by simpa using hk))).mono fun _ h => h.1)).bind ?_
        rintro ⟨s, p⟩ hc
        dsimp only at hc ⊢
        split
        · exact .ok hc
        · exact .throwStd
      · refine (hp.polyName W _).bind ?_
        rintro ⟨name, p⟩ ⟨hp, hb⟩
        dsimp only at hp hb ⊢
        split
        · split
          · exact (h2 _ _ _ hp).bind fun x hx => .ok hx
          · exact .ub
        · exact (ignore_member W _ hp.inner hb).bind fun p hp => hp.elim
  · intro deserMembers h3 d old p hp
    refine (hp.getToken W).bind ?_
    rintro ⟨t, p⟩ ⟨hc, -⟩
    dsimp only at hc ⊢
    split
    · exact .throwStd
    · exact h3 _ _ _ _ hc
  · intro deser deserMembers h1 h3 d found old p hp
    refine (hp.getToken W).bind ?_
    rintro ⟨t, p⟩ ⟨hc, hf, -, -⟩
    dsimp only at hc hf ⊢
    split
    · split
      · exact .throwStd
      · exact .ok hc
    refine (hc.lift ((W.getKey _ hc.inner hf).mono fun _ h => h.1)).bind ?_
    rintro ⟨key, p⟩ hc
    dsimp only at hc ⊢
    split
    · exact (hc.ignore W hw).bind fun p hc => h3 _ _ _ _ hc
    split
    · exact .ub
    · exact (h1 _ _ _ (hc.pre W)).bind fun x hx => h3 _ _ _ _ hx
  · intro deser deserDict h1 h4 kind t kvs p hp
    refine (hp.getToken W).bind ?_
    rintro ⟨t, p⟩ ⟨hc, hf, -, -⟩
    dsimp only at hc hf ⊢
    split
    · exact .ok hc
    refine (hc.lift ((W.getKey _ hc.inner hf).mono fun _ h => h.1)).bind ?_
    rintro ⟨key, p⟩ hc
    exact (h1 _ _ _ (hc.pre W)).bind fun x hx => h4 _ _ _ _ hx
  · intro deser deserFix h1 h5 tyAt i vs p hp
    refine ((hp.pre W).getToken W).bind ?_
    rintro ⟨t, p⟩ ⟨hc, ht, hf, hv⟩
    dsimp only at hc ht hf hv ⊢
    split
    · exact .ok hc
    split
    · exact (h1 _ _ _ (hc.push ht hf hv)).bind fun x hx => h5 _ _ _ _ hx
    · exact .ub
  · intro deser deserVec h1 h6 k t vs p hp
    refine ((hp.pre W).getToken W).bind ?_
    rintro ⟨t, p⟩ ⟨hc, ht, hf, hv⟩
    dsimp only at hc ht hf hv ⊢
    split
    · exact .ok hc
    · exact (h1 _ _ _ (hc.push ht hf hv)).bind fun x hx => h6 _ _ _ _ hx

end
end Thors
