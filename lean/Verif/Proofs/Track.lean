import Verif.Proofs.Watch
/-
Where in the document the concrete parser stands along an import: whatever is read, is read at the places where the parser expects it.
-/
namespace Thors
open Lean.Order StrIn

/-- The places of a document `C`. `Lost`: the import cannot succeed any more. `At c`: the value at `c` is next. `Told c k`: the first
token `k` of the value at `c` has been read. `InA c`, `InM c`: between the elements or members of the container at `c`. `KeyAt c`: a key
of the object at `c` has been announced. `After c`: the value at `c` has been read. -/
structure Track {σ C : Type} (o : POps σ) (S : Ty → Prop) (weak : Prop) (Lost : σ → Prop) (At : C → σ → Prop) (Told : C → Tok → σ → Prop)
    (InA InM KeyAt After : C → σ → Prop) : Prop where
  lost_next : ∀ s, Lost s → Yields (fun x => Lost x.2 ∧ x.1 = .Error) (o.next s)
  lost_key : ∀ s, Lost s → Yields (fun x => Lost x.2) (o.getKey s)
  lost_int : ∀ k s, Lost s → Yields (fun x => Lost x.2) (o.getInt k s)
  lost_flt : ∀ f s, Lost s → Yields (fun x => Lost x.2) (o.getFlt f s)
  lost_bool : ∀ s, Lost s → Yields (fun x => Lost x.2) (o.getBool s)
  lost_str : ∀ s, Lost s → Yields (fun x => Lost x.2) (o.getStr s)
  lost_ignore : ∀ s, Lost s → Yields Lost (o.ignoreData s)
  at_next : ∀ c s, At c s → Yields (fun x => Lost x.2 ∨ Told c x.1 x.2) (o.next s)
  nowhere : ∃ c, ∀ s, ¬ After c s
  told_error : ∀ c s, ¬ Told c .Error s
  told_map : ∀ c s, Told c .MapStart s → InM c s
  told_arr : ∀ c s, Told c .ArrayStart s → InA c s
  null : ∀ c k s, Told c k s → o.isNull s = true → ((∃ t, S (.uptr t)) ∨ ∃ b, S (.pptr b)) → Yields (fun s => Lost s ∨ After c s) (o.ignoreData s)
  int : ∀ c k s, Told c .Value s → S (.int k) → Yields (fun x => Lost x.2 ∨ After c x.2) (o.getInt k s)
  flt : ∀ c f s, Told c .Value s → S (.flt f) → Yields (fun x => Lost x.2 ∨ After c x.2) (o.getFlt f s)
  bool : ∀ c s, Told c .Value s → S .bool → Yields (fun x => Lost x.2 ∨ After c x.2) (o.getBool s)
  str : ∀ c s, Told c .Value s → Yields (fun x => Lost x.2 ∨ After c x.2) (o.getStr s)
  elem : ∀ c s, InA c s → Yields (fun x => Lost x.2 ∨ (x.1 = .ArrayEnd ∧ After c x.2) ∨
    (x.1 ≠ .ArrayEnd ∧ ∃ e, Told e x.1 x.2 ∧ ∀ s', After e s' → Lost s' ∨ InA c s')) (o.next s)
  member : ∀ c s, InM c s → Yields (fun x => (x.1 = .Error ∧ Lost x.2) ∨ (x.1 = .MapEnd ∧ After c x.2) ∨ (x.1 = .Key ∧ KeyAt c x.2)) (o.next s)
  key : ∀ c s, KeyAt c s → Yields (fun x => Lost x.2 ∨ ∃ e, At e x.2 ∧ ∀ s', After e s' → Lost s' ∨ InM c s') (o.getKey s)
  skip : weak → ∀ c s, Told c .Value s → Yields (fun s => Lost s ∨ After c s) (o.ignoreData s)
  skip_key : weak → ∀ c s, KeyAt c s → Yields (fun s => Lost s ∨ ∃ e, At e s ∧ ∀ s', After e s' → Lost s' ∨ InM c s') (o.ignoreData s)

/-- The types that are asked for along an import into a type of `S` are in `S`. -/
structure Closed (env : Env) (S : Ty → Prop) : Prop where
  seq : ∀ k t, S (.seq k t) → S t
  arr : ∀ n t, S (.arr n t) → S t
  smap : ∀ t, S (.smap t) → S t
  mmap : ∀ t, S (.mmap t) → S t
  umap : ∀ t, S (.umap t) → S t
  opt : ∀ t, S (.opt t) → S t
  uptr : ∀ t, S (.uptr t) → S t
  pptr : ∀ b n c, S (.pptr b) → env.registry.lookup n = some c → S (.named c)
  tuple : ∀ (i : Nat) (ts : List Ty) (j : Nat) (t : Ty), S (.named i) → env.defs i = .tuple ts → ts[j]? = some t → S t
  alt : ∀ i alts c, S (.named i) → env.defs i = .variant alts → c ∈ alts → S (.named c)
  member : ∀ i d k s, S (.named i) → env.defs i = .cls d → d.traits.find k = some s → S s.ty

section
variable {σ C : Type} {o : POps σ} {S : Ty → Prop} {weak : Prop} {Lost : σ → Prop} {At : C → σ → Prop} {Told : C → Tok → σ → Prop}
  {InA InM KeyAt After : C → σ → Prop}

/-- Nothing is pushed back. -/
structure TClean (P : σ → Prop) (p : PI σ) : Prop where
  pb1 : p.pb1 = .Error
  pb2 : p.pb2 = .Error
  inner : P p.inner

/-- A value is to be read. -/
structure TPre (Lost : σ → Prop) (At : C → σ → Prop) (Told : C → Tok → σ → Prop) (c : C) (p : PI σ) : Prop where
  pb2 : p.pb2 = .Error
  inner : Lost p.inner ∨ (p.pb1 = .Error ∧ At c p.inner) ∨ (p.pb1 ≠ .Error ∧ Told c p.pb1 p.inner)

/-- An object of class type is to be read; its first member may have been read before. -/
def TPreC (Lost : σ → Prop) (At : C → σ → Prop) (Told : C → Tok → σ → Prop) (InM : C → σ → Prop) (c : C) (p : PI σ) : Prop :=
  TPre Lost At Told c p ∨ (p.pb2 = .Error ∧ p.pb1 = .MapStart ∧ InM c p.inner)

theorem TPre.getToken (W : Track o S weak Lost At Told InA InM KeyAt After) {c : C} {p : PI σ} (h : TPre Lost At Told c p) :
    Yields (fun x => TClean (fun s => Lost s ∨ Told c x.1 s) x.2) (p.getToken o) := by
  unfold PI.getToken
  rw [if_neg (by simp [h.pb2])]
  split
  · rename_i h1
    rcases h.inner with hl | ⟨h2, -⟩ | ⟨-, h2⟩
    · exact .ok ⟨rfl, h.pb2, .inl hl⟩
    · exact absurd h2 h1
    · exact .ok ⟨rfl, h.pb2, .inr h2⟩
  · rename_i h1
    have h1 : p.pb1 = .Error := by simpa using h1
    rcases h.inner with hl | ⟨-, h2⟩ | ⟨h2, -⟩
    · exact (W.lost_next _ hl).bind fun x hx => .ok ⟨h1, h.pb2, .inl hx.1⟩
    · exact (W.at_next c _ h2).bind fun x hx => .ok ⟨h1, h.pb2, hx⟩
    · exact absurd h1 h2

theorem TClean.token {P : σ → Prop} {Q : Tok × σ → Prop} {p : PI σ} (h : TClean P p) (hn : ∀ s, P s → Yields Q (o.next s)) :
    Yields (fun x => TClean (fun s => Q (x.1, s)) x.2) (p.getToken o) := by
  unfold PI.getToken
  rw [if_neg (by simp [h.pb2]), if_neg (by simp [h.pb1])]
  exact (hn _ h.inner).bind fun x hx => .ok ⟨h.pb1, h.pb2, hx⟩

theorem TClean.lift {P Q : σ → Prop} {α : Type} {p : PI σ} {r : Res (α × σ)} (h : TClean P p) (hr : Yields (fun x => Q x.2) r) :
    Yields (fun x => TClean Q x.2) (p.lift r) :=
  hr.bind fun _ hx => .ok ⟨h.pb1, h.pb2, hx⟩

theorem TClean.mono {P Q : σ → Prop} {p : PI σ} (h : TClean P p) (hq : ∀ s, P s → Q s) : TClean Q p := ⟨h.pb1, h.pb2, hq _ h.inner⟩

theorem TClean.push (W : Track o S weak Lost At Told InA InM KeyAt After) {c : C} {k : Tok} {p : PI σ} (h : TClean (fun s => Lost s ∨ Told c k s) p) :
    TPre Lost At Told c (p.pushBackToken k) := by
  unfold PI.pushBackToken
  rw [if_pos h.pb1]
  refine ⟨h.pb2, ?_⟩
  rcases h.inner with h1 | h1
  · exact .inl h1
  · exact .inr (.inr ⟨by rintro rfl; exact W.told_error _ _ h1, h1⟩)

/-- Skipping keeps to the places. -/
theorem ignore_track (W : Track o S weak Lost At Told InA InM KeyAt After) (hw : weak) :
    (∀ s c, Lost s ∨ At c s → Yields (fun s => Lost s ∨ After c s) (ignoreTheValue o s)) ∧
    (∀ s c, Lost s ∨ InA c s → Yields (fun s => Lost s ∨ After c s) (ignoreTheArray o s)) ∧
    (∀ s c, Lost s ∨ InM c s → Yields (fun s => Lost s ∨ After c s) (ignoreTheMap o s)) := by
  refine ignoreTheValue.mutual_fixpoint_induct o
    (fun f => ∀ s c, Lost s ∨ At c s → Yields (fun s => Lost s ∨ After c s) (f s))
    (fun f => ∀ s c, Lost s ∨ InA c s → Yields (fun s => Lost s ∨ After c s) (f s))
    (fun f => ∀ s c, Lost s ∨ InM c s → Yields (fun s => Lost s ∨ After c s) (f s))
    ?_ ?_ ?_ ?_ ?_ ?_
  · exact admissible_pi _ fun s => admissible_pi _ fun c => admissible_pi _ fun _ => admissible_apply (fun _ r => Yields _ r) s (Yields.admissible _)
  · exact admissible_pi _ fun s => admissible_pi _ fun c => admissible_pi _ fun _ => admissible_apply (fun _ r => Yields _ r) s (Yields.admissible _)
  · exact admissible_pi _ fun s => admissible_pi _ fun c => admissible_pi _ fun _ => admissible_apply (fun _ r => Yields _ r) s (Yields.admissible _)
  · intro fa fm ha hm s c hs
    refine Yields.bind (P := fun x : Tok × σ => (Lost x.2 ∧ x.1 = .Error) ∨ Lost x.2 ∨ Told c x.1 x.2) ?_ ?_
    · rcases hs with hs | hs
      · exact (W.lost_next s hs).mono fun x hx => .inl hx
      · exact (W.at_next c s hs).mono fun x hx => .inr hx
    rintro ⟨t, s⟩ (⟨h1, h2⟩ | h1 | h1)
    · dsimp only at h2; subst h2; exact .throwStd
    · cases t <;> first
        | exact .throwStd
        | exact (W.lost_ignore s h1).mono fun s h => .inl h
        | exact hm s c (.inl h1)
        | exact ha s c (.inl h1)
    · cases t <;> first
        | exact .throwStd
        | exact W.skip hw c s h1
        | exact hm s c (.inr (W.told_map c s h1))
        | exact ha s c (.inr (W.told_arr c s h1))
  · intro fa fm ha hm s c hs
    refine Yields.bind (P := fun x : Tok × σ => Lost x.2 ∨ (x.1 = .ArrayEnd ∧ After c x.2) ∨
      (x.1 ≠ .ArrayEnd ∧ ∃ e, Told e x.1 x.2 ∧ ∀ s', After e s' → Lost s' ∨ InA c s')) ?_ ?_
    · rcases hs with hs | hs
      · exact (W.lost_next s hs).mono fun x hx => .inl hx.1
      · exact W.elem c s hs
    obtain ⟨n, hn⟩ := W.nowhere
    rintro ⟨t, s⟩ (h1 | ⟨h1, h2⟩ | ⟨h0, e, h1, h2⟩)
    · cases t <;> first
        | exact .throwStd
        | exact .ok (.inl h1)
        | exact (W.lost_ignore s h1).bind fun s h => ha s c (.inl h)
        | exact (hm s n (.inl h1)).bind fun s h => ha s c (.inl (h.resolve_right (hn s)))
        | exact (ha s n (.inl h1)).bind fun s h => ha s c (.inl (h.resolve_right (hn s)))
    · dsimp only at h1; subst h1; exact .ok (.inr h2)
    · have back : ∀ s', Lost s' ∨ After e s' → Lost s' ∨ InA c s' := fun s' h => h.elim .inl (h2 s')
      cases t <;> first
        | exact .throwStd
        | exact absurd rfl h0
        | exact (W.skip hw e s h1).bind fun s h => ha s c (back s h)
        | exact (hm s e (.inr (W.told_map e s h1))).bind fun s h => ha s c (back s h)
        | exact (ha s e (.inr (W.told_arr e s h1))).bind fun s h => ha s c (back s h)
  · intro fv fm hv hm s c hs
    refine Yields.bind (P := fun x : Tok × σ => Lost x.2 ∨ (x.1 = .MapEnd ∧ After c x.2) ∨ (x.1 = .Key ∧ KeyAt c x.2)) ?_ ?_
    · rcases hs with hs | hs
      · exact (W.lost_next s hs).mono fun x hx => .inl hx.1
      · exact (W.member c s hs).mono fun x hx => hx.imp And.right id
    obtain ⟨n, hn⟩ := W.nowhere
    rintro ⟨t, s⟩ (h1 | ⟨h1, h2⟩ | ⟨h1, h2⟩)
    · dsimp only
      split
      · exact .ok (.inl h1)
      refine (W.lost_ignore s h1).bind fun s h => ?_
      split
      · exact .throwStd
      · exact (hv s n (.inl h)).bind fun s h => hm s c (.inl (h.resolve_right (hn s)))
    · dsimp only at h1; subst h1; exact .ok (.inr h2)
    · dsimp only at h1; subst h1
      dsimp only
      rw [if_neg (by decide)]
      refine (W.skip_key hw c s h2).bind fun s h => ?_
      rw [if_neg (by decide)]
      rcases h with h | ⟨e, h, hb⟩
      · exact (hv s n (.inl h)).bind fun s h => hm s c (.inl (h.resolve_right (hn s)))
      · exact (hv s e (.inr h)).bind fun s h => hm s c (h.elim .inl (hb s))

theorem TClean.ignore (W : Track o S weak Lost At Told InA InM KeyAt After) {st : ParseType} (hw : st = .Weak → weak) {c : C} {p : PI σ}
    (h : TClean (fun s => Lost s ∨ At c s) p) : Yields (TClean (fun s => Lost s ∨ After c s)) (p.ignoreValue o st) := by
  unfold PI.ignoreValue
  split
  · exact .throwStd
  · rename_i hs
    exact ((ignore_track W (hw (by simpa using hs))).1 _ c h.inner).bind fun s hs => .ok ⟨h.pb1, h.pb2, hs⟩

/-- The name of a class has been read: the object is to be read on. -/
structure TNamed (Lost : σ → Prop) (InM : C → σ → Prop) (c : C) (p : PI σ) : Prop where
  pb2 : p.pb2 = .Error
  pb1 : p.pb1 = .MapStart
  inner : Lost p.inner ∨ InM c p.inner

theorem TPre.polyName (W : Track o S weak Lost At Told InA InM KeyAt After) (mk : Bytes) {c : C} {p : PI σ} (h : TPre Lost At Told c p) :
    Yields (fun x => TNamed Lost InM c x.2) (polyClassName o mk p) := by
  obtain ⟨n, hn⟩ := W.nowhere
  unfold polyClassName
  refine (h.getToken W).bind ?_
  rintro ⟨t, p⟩ hc
  dsimp only at hc ⊢
  split
  · exact .throwStd
  rename_i ht
  have ht : t = .MapStart := by simpa using ht
  subst ht
  refine (hc.token (Q := fun x => Lost x.2 ∨ (x.1 = .MapEnd ∧ After c x.2) ∨ (x.1 = .Key ∧ KeyAt c x.2)) ?_).bind ?_
  · rintro s (hs | hs)
    · exact (W.lost_next s hs).mono fun x hx => .inl hx.1
    · exact (W.member c s (W.told_map c s hs)).mono fun x hx => hx.imp And.right id
  rintro ⟨t, p⟩ hc
  dsimp only at hc ⊢
  split
  · exact .throwStd
  rename_i ht
  have ht : t = .Key := by simpa using ht
  subst ht
  refine (hc.lift (Q := fun s => Lost s ∨ ∃ e, At e s ∧ ∀ s', After e s' → Lost s' ∨ InM c s') ?_).bind ?_
  · rcases hc.inner with h | ⟨h, -⟩ | ⟨-, h⟩
    · exact (W.lost_key _ h).mono fun x hx => .inl hx
    · cases h
    · exact W.key c _ h
  rintro ⟨key, p⟩ hc
  dsimp only at hc ⊢
  split
  · exact .throwStd
  have ⟨e, he, hb⟩ : ∃ e, (Lost p.inner ∨ At e p.inner) ∧ ∀ s', After e s' → Lost s' ∨ InM c s' := by
    rcases hc.inner with h | ⟨e, h1, h2⟩
    · exact ⟨n, .inl h, fun s h => absurd h (hn s)⟩
    · exact ⟨e, .inr h1, h2⟩
  have hc : TClean (fun s => Lost s ∨ At e s) p := ⟨hc.pb1, hc.pb2, he⟩
  refine (hc.token (Q := fun x => Lost x.2 ∨ Told e x.1 x.2) ?_).bind ?_
  · rintro s (hs | hs)
    · exact (W.lost_next s hs).mono fun x hx => .inl hx.1
    · exact W.at_next e s hs
  rintro ⟨t, p⟩ hc
  dsimp only at hc ⊢
  split
  · exact .throwStd
  rename_i ht
  have ht : t = .Value := by simpa using ht
  subst ht
  refine (hc.lift (Q := fun s => Lost s ∨ After e s) ?_).bind ?_
  · rcases hc.inner with h | h
    · exact (W.lost_str _ h).mono fun x hx => .inl hx
    · exact W.str e _ h
  rintro ⟨name, p⟩ hc
  unfold PI.pushBackToken
  rw [if_pos hc.pb1]
  exact .ok ⟨hc.pb2, rfl, hc.inner.elim .inl (hb _)⟩

theorem TNamed.pre {c : C} {p : PI σ} (h : TNamed Lost InM c p) : TPreC Lost At Told InM c p := by
  rcases h.inner with h1 | h1
  · exact .inl ⟨h.pb2, .inl h1⟩
  · exact .inr ⟨h.pb2, h.pb1, h1⟩

/-- Behind the first member of an object no value can be skipped. -/
theorem TNamed.ignore (W : Track o S weak Lost At Told InA InM KeyAt After) {P : PI σ → Prop} (st : ParseType) {c : C} {p : PI σ}
    (h : TNamed Lost InM c p) : Yields P (p.ignoreValue o st) := by
  unfold PI.ignoreValue
  split
  · exact .throwStd
  · rw [ignoreTheValue]
    have : Yields (fun x => x.1 = .Error ∨ x.1 = .MapEnd ∨ x.1 = Tok.Key) (o.next p.inner) := by
      rcases h.inner with h1 | h1
      · exact (W.lost_next _ h1).mono fun x hx => .inl hx.2
      · exact (W.member c _ h1).mono fun x hx => hx.imp And.left (Or.imp And.left And.left)
    refine Yields.bind (P := fun _ => False) (this.bind ?_) fun _ h => h.elim
    rintro ⟨t, s⟩ (h | h | h) <;> (dsimp only at h; subst h; exact .throwStd)

theorem tAdm3 {A B C X D : Type} (P : X → D → Prop) (H : A → B → C → X → Prop) :
    admissible (fun f : A → B → C → Res D => ∀ a b c x, H a b c x → Yields (P x) (f a b c)) :=
  admissible_pi _ fun a => admissible_pi _ fun b => admissible_pi _ fun c => admissible_pi _ fun x => admissible_pi _ fun _ =>
    admissible_apply (fun (_ : A) (f : B → C → Res D) => Yields (P x) (f b c)) a
      (admissible_apply (fun (_ : B) (f : C → Res D) => Yields (P x) (f c)) b (admissible_apply (fun (_ : C) (r : Res D) => Yields (P x) r) c (Yields.admissible _)))

theorem tAdm4 {A B C D X E : Type} (P : X → E → Prop) (H : A → B → C → D → X → Prop) :
    admissible (fun f : A → B → C → D → Res E => ∀ a b c d x, H a b c d x → Yields (P x) (f a b c d)) :=
  admissible_pi _ fun a => admissible_pi _ fun b => admissible_pi _ fun c => admissible_pi _ fun d => admissible_pi _ fun x => admissible_pi _ fun _ =>
    admissible_apply (fun (_ : A) (f : B → C → D → Res E) => Yields (P x) (f b c d)) a
      (admissible_apply (fun (_ : B) (f : C → D → Res E) => Yields (P x) (f c d)) b
        (admissible_apply (fun (_ : C) (f : D → Res E) => Yields (P x) (f d)) c (admissible_apply (fun (_ : D) (r : Res E) => Yields (P x) r) d (Yields.admissible _))))

/-- A token between the elements of an array, and the element if it is one. -/
theorem TClean.elem (W : Track o S weak Lost At Told InA InM KeyAt After) {c : C} {p : PI σ} (h : TClean (fun s => Lost s ∨ InA c s) p) :
    Yields (fun x => TClean (fun s => Lost s ∨ (x.1 = .ArrayEnd ∧ After c s) ∨
      (x.1 ≠ .ArrayEnd ∧ ∃ e, Told e x.1 s ∧ ∀ s', After e s' → Lost s' ∨ InA c s')) x.2) (p.getToken o) := by
  refine h.token (Q := fun x => Lost x.2 ∨ (x.1 = .ArrayEnd ∧ After c x.2) ∨
      (x.1 ≠ .ArrayEnd ∧ ∃ e, Told e x.1 x.2 ∧ ∀ s', After e s' → Lost s' ∨ InA c s')) ?_
  rintro s (hs | hs)
  · exact (W.lost_next s hs).mono fun x hx => .inl hx.1
  · exact W.elem c s hs

/-- The place of an element. -/
theorem TClean.elemPre (W : Track o S weak Lost At Told InA InM KeyAt After) {c : C} {k : Tok} {p : PI σ}
    (h : TClean (fun s => Lost s ∨ (k = .ArrayEnd ∧ After c s) ∨ (k ≠ .ArrayEnd ∧ ∃ e, Told e k s ∧ ∀ s', After e s' → Lost s' ∨ InA c s')) p)
    (hk : k ≠ .ArrayEnd) : ∃ e, TPre Lost At Told e (p.pushBackToken k) ∧ ∀ s', Lost s' ∨ After e s' → Lost s' ∨ InA c s' := by
  obtain ⟨n, hn⟩ := W.nowhere
  rcases h.inner with h1 | ⟨h1, -⟩ | ⟨-, e, h1, h2⟩
  · exact ⟨n, TClean.push W ⟨h.pb1, h.pb2, .inl h1⟩, fun s hs => .inl (hs.resolve_right (hn s))⟩
  · exact absurd h1 hk
  · exact ⟨e, TClean.push W ⟨h.pb1, h.pb2, .inr h1⟩, fun s hs => hs.elim .inl (h2 s)⟩

/-- A token between the members of an object. -/
theorem TClean.mem (W : Track o S weak Lost At Told InA InM KeyAt After) {c : C} {p : PI σ} (h : TClean (fun s => Lost s ∨ InM c s) p) :
    Yields (fun x => TClean (fun s => Lost s ∨ (x.1 = .MapEnd ∧ After c s) ∨ (x.1 = .Key ∧ KeyAt c s)) x.2) (p.getToken o) := by
  refine h.token (Q := fun x => Lost x.2 ∨ (x.1 = .MapEnd ∧ After c x.2) ∨ (x.1 = .Key ∧ KeyAt c x.2)) ?_
  rintro s (hs | hs)
  · exact (W.lost_next s hs).mono fun x hx => .inl hx.1
  · exact (W.member c s hs).mono fun x hx => hx.imp And.right id

/-- The key, and the place of the value. -/
theorem TClean.memKey (W : Track o S weak Lost At Told InA InM KeyAt After) {c : C} {k : Tok} {p : PI σ}
    (h : TClean (fun s => Lost s ∨ (k = .MapEnd ∧ After c s) ∨ (k = .Key ∧ KeyAt c s)) p) (hk : k ≠ .MapEnd) :
    Yields (fun x => ∃ e, TClean (fun s => Lost s ∨ At e s) x.2 ∧ ∀ s', Lost s' ∨ After e s' → Lost s' ∨ InM c s') (p.lift (o.getKey p.inner)) := by
  obtain ⟨n, hn⟩ := W.nowhere
  refine (h.lift (Q := fun s => Lost s ∨ ∃ e, At e s ∧ ∀ s', After e s' → Lost s' ∨ InM c s') ?_).mono ?_
  · rcases h.inner with h | ⟨h, -⟩ | ⟨-, h⟩
    · exact (W.lost_key _ h).mono fun x hx => .inl hx
    · exact absurd h hk
    · exact W.key c _ h
  · rintro ⟨key, p⟩ hc
    rcases hc.inner with h | ⟨e, h1, h2⟩
    · exact ⟨n, ⟨hc.pb1, hc.pb2, .inl h⟩, fun s hs => .inl (hs.resolve_right (hn s))⟩
    · exact ⟨e, ⟨hc.pb1, hc.pb2, .inr h1⟩, fun s hs => hs.elim .inl (h2 s)⟩

theorem TClean.pre {c : C} {p : PI σ} (h : TClean (fun s => Lost s ∨ At c s) p) : TPre Lost At Told c p :=
  ⟨h.pb2, h.inner.elim .inl fun h1 => .inr (.inl ⟨h.pb1, h1⟩)⟩

theorem TPreC.getToken (W : Track o S weak Lost At Told InA InM KeyAt After) {c : C} {p : PI σ} (h : TPreC Lost At Told InM c p) :
    Yields (fun x => x.1 = .MapStart → TClean (fun s => Lost s ∨ InM c s) x.2) (p.getToken o) := by
  rcases h with h | ⟨h2, h1, h⟩
  · refine (h.getToken W).mono ?_
    rintro ⟨t, p⟩ hc ht
    dsimp only at hc ht ⊢
    subst ht
    exact hc.mono fun s hs => hs.imp id (W.told_map c s)
  · unfold PI.getToken
    rw [if_neg (by simp [h2]), if_pos (by simp [h1])]
    exact .ok fun _ => ⟨rfl, h2, .inr h⟩

theorem pickAlt_in {env : Env} {cfg : Cfg} {key name : Bytes} : ∀ {alts : List Nat} {c : Nat}, pickAlt env cfg key name alts = some c → c ∈ alts
  | [], c, h => by cases h
  | a :: as, c, h => by
    unfold pickAlt at h
    split at h
    · split at h
      · exact List.mem_cons_of_mem _ (pickAlt_in h)
      · cases h; exact List.mem_cons_self ..
    · exact List.mem_cons_of_mem _ (pickAlt_in h)

set_option maxHeartbeats 1000000 in
/-- An import keeps to the places of the document. -/
theorem deser_track (W : Track o S weak Lost At Told InA InM KeyAt After) (env : Env) (cfg : Cfg) (hw : cfg.strict = .Weak → weak) (hS : Closed env S) :
    ∀ ty old p c, (S ty ∧ TPre Lost At Told c p) → Yields (fun x => TClean (fun s => Lost s ∨ After c s) x.2) (deser o env cfg ty old p) := by
  refine (deser.mutual_fixpoint_induct o env cfg
    (fun f => ∀ ty old p c, (S ty ∧ TPre Lost At Told c p) → Yields (fun x => TClean (fun s => Lost s ∨ After c s) x.2) (f ty old p))
    (fun f => ∀ d old p c, ((∀ k s, d.find k = some s → S s.ty) ∧ TPreC Lost At Told InM c p) → Yields (fun x => TClean (fun s => Lost s ∨ After c s) x.2) (f d old p))
    (fun f => ∀ d found old p c, ((∀ k s, d.find k = some s → S s.ty) ∧ TClean (fun s => Lost s ∨ InM c s) p) →
      Yields (fun x => TClean (fun s => Lost s ∨ After c s) x.2) (f d found old p))
    (fun f => ∀ kind t kvs p c, (S t ∧ TClean (fun s => Lost s ∨ InM c s) p) → Yields (fun x => TClean (fun s => Lost s ∨ After c s) x.2) (f kind t kvs p))
    (fun f => ∀ tyAt i vs p c, ((∀ j t, tyAt j = some t → S t) ∧ TClean (fun s => Lost s ∨ InA c s) p) →
      Yields (fun x => TClean (fun s => Lost s ∨ After c s) x.2) (f tyAt i vs p))
    (fun f => ∀ k t vs p c, (S t ∧ TClean (fun s => Lost s ∨ InA c s) p) → Yields (fun x => TClean (fun s => Lost s ∨ After c s) x.2) (f k t vs p))
    ?_ ?_ ?_ ?_ ?_ ?_ ?_ ?_ ?_ ?_ ?_ ?_).1
  · exact tAdm3 (fun c (x : Val × PI σ) => TClean (fun s => Lost s ∨ After c s) x.2) _
  · exact tAdm3 (fun c (x : Val × PI σ) => TClean (fun s => Lost s ∨ After c s) x.2) _
  · exact tAdm4 (fun c (x : Val × PI σ) => TClean (fun s => Lost s ∨ After c s) x.2) _
  · exact tAdm4 (fun c (x : Val × PI σ) => TClean (fun s => Lost s ∨ After c s) x.2) _
  · exact tAdm4 (fun c (x : Val × PI σ) => TClean (fun s => Lost s ∨ After c s) x.2) _
  · exact tAdm4 (fun c (x : Val × PI σ) => TClean (fun s => Lost s ∨ After c s) x.2) _
  · intro deser deserClass deserDict deserFix deserVec h1 h2 h4 h5 h6 ty old p c hp
    obtain ⟨ht, hp⟩ := hp
    -- a scalar
    have scalar : ∀ {α : Type} (r : σ → Res (α × σ)) (g : α → Res Val), (∀ s, Lost s → Yields (fun x => Lost x.2) (r s)) →
        (∀ s, Told c .Value s → Yields (fun x => Lost x.2 ∨ After c x.2) (r s)) →
        Yields (fun x => TClean (fun s => Lost s ∨ After c s) x.2) (do
          let (t, p) ← p.getToken o
          if t ≠ .Value then throwStd else
          let (a, p) ← p.lift (r p.inner)
          let v ← g a
          return (v, p)) := by
      intro α r g hl hr
      refine (hp.getToken W).bind ?_
      rintro ⟨t, p⟩ hc
      dsimp only at hc ⊢
      split
      · exact .throwStd
      rename_i hk
      have hk : t = .Value := by simpa using hk
      subst hk
      refine (hc.lift (Q := fun s => Lost s ∨ After c s) ?_).bind ?_
      · rcases hc.inner with h | h
        · exact (hl _ h).mono fun x hx => .inl hx
        · exact hr _ h
      · rintro ⟨a, p⟩ hc
        dsimp only
        cases g a with
        | ok v => exact .ok hc
        | throw e => exact .throw
        | ub => exact .ub
    have array : Yields (fun x => x.1 = .ArrayStart → TClean (fun s => Lost s ∨ InA c s) x.2) (p.getToken o) := by
      refine (hp.getToken W).mono ?_
      rintro ⟨t, p⟩ hc ht
      dsimp only at hc ht ⊢
      subst ht
      exact hc.mono fun s hs => hs.imp id (W.told_arr c s)
    have object : Yields (fun x => x.1 = .MapStart → TClean (fun s => Lost s ∨ InM c s) x.2) (p.getToken o) := TPreC.getToken W (.inl hp)
    -- a null pointer
    have null : ∀ (k : Tok) (q : PI σ), TClean (fun s => Lost s ∨ Told c k s) q → o.isNull q.inner = true → ((∃ t, S (.uptr t)) ∨ ∃ b, S (.pptr b)) →
        Yields (fun x => TClean (fun s => Lost s ∨ After c s) x.2) (do
          let s ← o.ignoreData q.inner
          return (Val.null, { q with inner := s })) := by
      intro k q hq hn hs
      refine Yields.bind (P := fun s => Lost s ∨ After c s) ?_ fun s hs => .ok ⟨hq.pb1, hq.pb2, hs⟩
      rcases hq.inner with h | h
      · exact (W.lost_ignore _ h).mono fun s hs => .inl hs
      · exact W.null c k _ h hn hs
    cases ty with
    | int k => exact scalar (o.getInt k) (fun i => .ok (.int i)) (W.lost_int k) fun s h => W.int c k s h ht
    | flt f => exact scalar (o.getFlt f) (fun x => .ok (.flt x)) (W.lost_flt f) fun s h => W.flt c f s h ht
    | bool => exact scalar o.getBool (fun b => .ok (.bool b)) W.lost_bool fun s h => W.bool c s h ht
    | str => exact scalar o.getStr (fun b => .ok (.str b)) W.lost_str fun s h => W.str c s h
    | seq k t =>
      refine array.bind ?_
      rintro ⟨t, p⟩ hp
      dsimp only at hp ⊢
      split
      · exact .throwStd
      rename_i hk
      have hp := hp (by simpa using hk)
      split
      · exact h6 _ _ _ _ c ⟨hS.seq _ _ ht, hp⟩
      · exact .ub
    | arr n t =>
      refine array.bind ?_
      rintro ⟨t, p⟩ hp
      dsimp only at hp ⊢
      split
      · exact .throwStd
      rename_i hk
      have hp := hp (by simpa using hk)
      split
      · refine h5 _ _ _ _ c ⟨fun j t' h => ?_, hp⟩
        split at h
        · cases h; exact hS.arr _ _ ht
        · cases h
      · exact .ub
    | smap t =>
      refine object.bind ?_
      rintro ⟨t, p⟩ hp
      dsimp only at hp ⊢
      split
      · exact .throwStd
      rename_i hk
      have hp := hp (by simpa using hk)
      split
      · exact h4 _ _ _ _ c ⟨hS.smap _ ht, hp⟩
      · exact .ub
    | mmap t =>
      refine object.bind ?_
      rintro ⟨t, p⟩ hp
      dsimp only at hp ⊢
      split
      · exact .throwStd
      rename_i hk
      have hp := hp (by simpa using hk)
      split
      · exact h4 _ _ _ _ c ⟨hS.mmap _ ht, hp⟩
      · exact .ub
    | umap t =>
      refine object.bind ?_
      rintro ⟨t, p⟩ hp
      dsimp only at hp ⊢
      split
      · exact .throwStd
      rename_i hk
      have hp := hp (by simpa using hk)
      split
      · exact h4 _ _ _ _ c ⟨hS.umap _ ht, hp⟩
      · exact .ub
    | opt t => exact (h1 _ _ _ c ⟨hS.opt _ ht, hp⟩).bind fun x hx => .ok hx
    | uptr t =>
      refine (hp.getToken W).bind ?_
      rintro ⟨k, p⟩ hc
      dsimp only at hc ⊢
      split
      · rename_i hn
        exact null k p hc hn (.inl ⟨t, ht⟩)
      · exact (h1 _ _ _ c ⟨hS.uptr _ ht, hc.push W⟩).bind fun x hx => .ok hx
    | pptr b =>
      refine (hp.getToken W).bind ?_
      rintro ⟨k, p⟩ hc
      dsimp only at hc ⊢
      split
      · rename_i hn
        exact null k p hc hn (.inr ⟨b, ht⟩)
      · refine ((hc.push W).polyName W _).bind ?_
        rintro ⟨name, p⟩ hp
        dsimp only at hp ⊢
        split
        · exact .throwStd
        rename_i hl
        split
        · exact .ub
        split
        · rename_i hd
          exact (h2 _ _ _ c ⟨fun k s hf => hS.member _ _ k s (hS.pptr b name _ ht hl) hd hf, hp.pre⟩).bind fun x hx => .ok hx
        · exact .ub
    | named i =>
      dsimp only
      split
      · rename_i hd
        exact h2 _ _ _ c ⟨fun k s hf => hS.member _ _ k s ht hd hf, .inl hp⟩
      · rename_i hd
        refine array.bind ?_
        rintro ⟨t, p⟩ hp
        dsimp only at hp ⊢
        split
        · exact .throwStd
        rename_i hk
        have hp := hp (by simpa using hk)
        split
        · exact h5 _ _ _ _ c ⟨fun j t' h => hS.tuple _ _ j t' ht hd h, hp⟩
        · exact .ub
      · rename_i table hd
        refine (hp.getToken W).bind ?_
        rintro ⟨t, p⟩ hc
        dsimp only at hc ⊢
        split
        · exact .throwStd
        rename_i hk
        have hk : t = .Value := by simpa using hk
        subst hk
        refine (hc.lift (Q := fun s => Lost s ∨ After c s) ?_).bind ?_
        · rcases hc.inner with h | h
          · exact (W.lost_str _ h).mono fun x hx => .inl hx
          · exact W.str c _ h
        · rintro ⟨a, p⟩ hc
          dsimp only
          split
          · exact .ok hc
          · exact .throwStd
      · rename_i hd
        refine (hp.polyName W _).bind ?_
        rintro ⟨name, p⟩ hp
        dsimp only at hp ⊢
        split
        · rename_i hc
          split
          · rename_i hd'
            exact (h2 _ _ _ c ⟨fun k s hf => hS.member _ _ k s (hS.alt i _ _ ht hd (pickAlt_in hc)) hd' hf, hp.pre⟩).bind fun x hx => .ok hx
          · exact .ub
        · exact (hp.ignore W (P := fun _ => False) _).bind fun p h => h.elim
  · intro deserMembers h3 d old p c hp
    refine (hp.2.getToken W).bind ?_
    rintro ⟨t, p⟩ hc
    dsimp only at hc ⊢
    split
    · exact .throwStd
    · rename_i hk
      exact h3 _ _ _ _ c ⟨hp.1, hc (by simpa using hk)⟩
  · intro deser deserMembers h1 h3 d found old p c hp
    refine (hp.2.mem W).bind ?_
    rintro ⟨t, p⟩ hc
    dsimp only at hc ⊢
    split
    · rename_i hk
      split
      · exact .throwStd
      · refine .ok (hc.mono fun s hs => ?_)
        rcases hs with h | ⟨-, h⟩ | ⟨h, -⟩
        · exact .inl h
        · exact .inr h
        · rw [hk] at h; cases h
    rename_i hk
    refine (hc.memKey W hk).bind ?_
    rintro ⟨key, p⟩ ⟨e, hc, hb⟩
    dsimp only at hc hb ⊢
    split
    · exact (hc.ignore W hw).bind fun p hp' => h3 _ _ _ _ c ⟨hp.1, hp'.mono hb⟩
    · rename_i slot hf
      split
      · exact .ub
      · exact (h1 _ _ _ e ⟨hp.1 _ _ hf, hc.pre⟩).bind fun x hx => h3 _ _ _ _ c ⟨hp.1, hx.mono hb⟩
  · intro deser deserDict h1 h4 kind t kvs p c hp
    refine (hp.2.mem W).bind ?_
    rintro ⟨k, p⟩ hc
    dsimp only at hc ⊢
    split
    · rename_i hk
      refine .ok (hc.mono fun s hs => ?_)
      rcases hs with h | ⟨-, h⟩ | ⟨h, -⟩
      · exact .inl h
      · exact .inr h
      · rw [hk] at h; cases h
    rename_i hk
    refine (hc.memKey W hk).bind ?_
    rintro ⟨key, p⟩ ⟨e, hc, hb⟩
    exact (h1 _ _ _ e ⟨hp.1, hc.pre⟩).bind fun x hx => h4 _ _ _ _ c ⟨hp.1, hx.mono hb⟩
  · intro deser deserFix h1 h5 tyAt i vs p c hp
    refine (hp.2.elem W).bind ?_
    rintro ⟨k, p⟩ hc
    dsimp only at hc ⊢
    split
    · rename_i hk
      refine .ok (hc.mono fun s hs => ?_)
      rcases hs with h | ⟨-, h⟩ | ⟨h, -⟩
      · exact .inl h
      · exact .inr h
      · exact absurd hk h
    rename_i hk
    obtain ⟨e, hp', hb⟩ := hc.elemPre W hk
    split
    · rename_i ht _
      exact (h1 _ _ _ e ⟨hp.1 _ _ ht, hp'⟩).bind fun x hx => h5 _ _ _ _ c ⟨hp.1, hx.mono hb⟩
    · exact .ub
  · intro deser deserVec h1 h6 k t vs p c hp
    refine (hp.2.elem W).bind ?_
    rintro ⟨k, p⟩ hc
    dsimp only at hc ⊢
    split
    · rename_i hk
      refine .ok (hc.mono fun s hs => ?_)
      rcases hs with h | ⟨-, h⟩ | ⟨h, -⟩
      · exact .inl h
      · exact .inr h
      · exact absurd hk h
    rename_i hk
    obtain ⟨e, hp', hb⟩ := hc.elemPre W hk
    exact (h1 _ _ _ e ⟨hp.1, hp'⟩).bind fun x hx => h6 _ _ _ _ c ⟨hp.1, hx.mono hb⟩

end
end Thors
