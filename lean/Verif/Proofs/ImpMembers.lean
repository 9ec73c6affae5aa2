import Verif.Spec.Positions
import Verif.Proofs.Presents
/-
Facts about the tree level import: structs, unknown members, exactness, order of members.
-/
namespace Thors
open Spec StrIn

section
variable {K X : Type} (sem : ScalarSem K X) (env : Env) (cfg : Cfg)

/-- Never succeeds. -/
def Fails {α : Type} (r : Res α) : Prop := ∀ a, r ≠ .ok a

theorem fails_bind {α β : Type} {r : Res α} {f : α → Res β} (h : Fails r) : Fails (r >>= f) := by
  intro b hb
  obtain ⟨a, ha, -⟩ := Res.bind_eq_ok.mp hb
  exact h a ha

theorem fails_bind' {α β : Type} {r : Res α} {f : α → Res β} (h : ∀ a, Fails (f a)) : Fails (r >>= f) := by
  intro b hb
  obtain ⟨a, -, hb⟩ := Res.bind_eq_ok.mp hb
  exact h a b hb

theorem imp_opt (v : Tr K X) (t : Ty) (old : Val) :
    imp sem env cfg v (.opt t) old = (do return .some (← imp sem env cfg v t (old.contentOr (t.default env)))) := by
  cases v with
  | scalar x => simp only [imp]; rw [impScalar]
  | arr ts => simp only [imp]; rw [impArr]
  | obj ms => simp only [imp]; rw [impObj]

/-- The document is a null. -/
def isNullTree (v : Tr K X) : Bool :=
  match v with
  | .scalar x => sem.isNull x
  | _ => false

theorem imp_uptr (v : Tr K X) (t : Ty) (old : Val) :
    imp sem env cfg v (.uptr t) old =
      if isNullTree sem v then .ok .null else (do return .ptr (← imp sem env cfg v t (t.default env))) := by
  cases v with
  | scalar x => simp only [imp]; rw [impScalar]; rfl
  | arr ts => simp only [imp]; rw [impArr]; rfl
  | obj ms => simp only [imp]; rw [impObj]; rfl

theorem impVec_fails (k : SeqKind) (t : Ty) (es : List Imp) (e : Imp) (h : e ∈ es) (hf : ∀ old, Fails (e t old)) : ∀ vs, Fails (impVec env k t es vs) := by
  induction es with
  | nil => cases h
  | cons a es ih =>
    intro vs
    rw [impVec]
    rcases List.mem_cons.mp h with rfl | h
    · exact fails_bind (hf _)
    · exact fails_bind' fun v => ih h _

theorem impFix_fails (tyAt : Nat → Option Ty) (es : List Imp) : ∀ (i j : Nat) (e : Imp), es[j]? = some e →
    (∀ t old, tyAt (i + j) = some t → Fails (e t old)) → ∀ vs, Fails (impFix tyAt es i vs) := by
  induction es with
  | nil => intro i j e h; simp at h
  | cons a es ih =>
    intro i j e h hf vs
    rw [impFix]
    cases h1 : tyAt i with
    | none => simp [Fails]
    | some t =>
      cases h2 : vs[i]? with
      | none => simp [Fails]
      | some w =>
        simp only
        cases j with
        | zero => simp at h; subst h; exact fails_bind (hf t w h1)
        | succ j =>
          refine fails_bind' fun v => ih (i + 1) j e (by simpa using h) (fun t old ht => hf t old ?_) _
          rw [← ht]; congr 1; omega

theorem impDict_fails (kind : DictKind) (t : Ty) (ms : List (Mem K X)) (m : Mem K X) (h : m ∈ ms) (hf : ∀ old, Fails (m.imp t old)) :
    ∀ kvs, Fails (impDict sem env kind t ms kvs) := by
  induction ms with
  | nil => cases h
  | cons a ms ih =>
    intro kvs
    cases kind <;> rw [impDict] <;>
    · rcases List.mem_cons.mp h with rfl | h
      · exact fails_bind (hf _)
      · exact fails_bind' fun v => ih h _

theorem impMembers_fails (d : StructDef) (ms : List (Mem K X)) (m : Mem K X) (h : m ∈ ms) (slot : StructDef.Slot)
    (hs : d.find (sem.key m.key) = some slot) (hf : ∀ old, Fails (m.imp slot.ty old)) :
    ∀ found old, Fails (impMembers sem cfg d ms found old) := by
  induction ms with
  | nil => cases h
  | cons a ms ih =>
    intro found old
    rw [impMembers]
    rcases List.mem_cons.mp h with rfl | h
    · rw [hs]
      simp only
      cases old.field slot.path slot.index with
      | none => simp [Fails]
      | some w => exact fails_bind (hf w)
    · cases d.find (sem.key a.key) with
      | none =>
        simp only
        split
        · simp [Fails]
        · split
          · simp [Fails]
          · exact ih h _ _
      | some sl =>
        simp only
        cases old.field sl.path sl.index with
        | none => simp [Fails]
        | some w => exact fails_bind' fun v => ih h _ _

theorem mem_members {k : K} {t : Tr K X} {ms : List (K × Tr K X)} (h : (k, t) ∈ ms) : (⟨k, t, imp sem env cfg t⟩ : Mem K X) ∈ imp.members sem env cfg ms := by
  rw [members_eq]
  exact List.mem_map.mpr ⟨(k, t), h, rfl⟩

theorem mem_elems {t : Tr K X} {ts : List (Tr K X)} (h : t ∈ ts) : imp sem env cfg t ∈ imp.elems sem env cfg ts := by
  rw [elems_eq]
  exact List.mem_map.mpr ⟨t, h, rfl⟩

theorem get_elems {t : Tr K X} {ts : List (Tr K X)} {i : Nat} (h : ts[i]? = some t) : (imp.elems sem env cfg ts)[i]? = some (imp sem env cfg t) := by
  rw [elems_eq, List.getElem?_map, h]
  rfl

mutual
/-- If the members of some struct position cannot be imported, nothing around them can. -/
theorem inside_fails {d : StructDef} {ms : List (K × Tr K X)} (hf : ∀ old, Fails (impMembers sem cfg d (imp.members sem env cfg ms) [] old)) :
    ∀ {ty : Ty} {v : Tr K X}, Inside sem env cfg d ms ty v → ∀ old, Fails (imp sem env cfg v ty old)
  | _, _, .cls (i := i) hd h, old => by
    have := insideCls_fails hf h
    simp only [imp]; rw [impObj, hd]; exact this old
  | _, _, .vec (k := k) (ty := ty) (ts := ts) ht h, old => by
    have := inside_fails hf h
    simp only [imp]
    cases old with
    | list vs => rw [impArr]; exact impVec_fails env k ty _ _ (mem_elems sem env cfg ht) this vs
    | _ => rw [impArr] <;> simp [Fails]
  | _, _, .arr (n := n) (i := i) (ty := ty) ht h, old => by
    have := inside_fails hf h
    simp only [imp]
    cases old with
    | list vs =>
      rw [impArr]
      refine impFix_fails _ _ 0 i _ (get_elems sem env cfg ht) (fun t old ht => ?_) vs
      split at ht
      · cases ht; exact this old
      · cases ht
    | _ => rw [impArr] <;> simp [Fails]
  | _, _, .tuple (i := i) hd hty ht h, old => by
    have := inside_fails hf h
    simp only [imp]
    rw [impArr, hd]
    cases old with
    | list vs =>
      refine impFix_fails _ _ 0 i _ (get_elems sem env cfg ht) (fun t old ht => ?_) vs
      simp only [Nat.zero_add] at ht
      rw [hty] at ht
      cases ht
      exact this old
    | _ => simp [Fails]
  | _, _, .smap hm h, old => by
    have := inside_fails hf h
    simp only [imp]
    cases old with
    | dict vs => rw [impObj]; exact impDict_fails sem env _ _ _ _ (mem_members sem env cfg hm) this vs
    | _ => rw [impObj] <;> simp [Fails]
  | _, _, .mmap hm h, old => by
    have := inside_fails hf h
    simp only [imp]
    cases old with
    | dict vs => rw [impObj]; exact impDict_fails sem env _ _ _ _ (mem_members sem env cfg hm) this vs
    | _ => rw [impObj] <;> simp [Fails]
  | _, _, .umap hm h, old => by
    have := inside_fails hf h
    simp only [imp]
    cases old with
    | dict vs => rw [impObj]; exact impDict_fails sem env _ _ _ _ (mem_members sem env cfg hm) this vs
    | _ => rw [impObj] <;> simp [Fails]
  | _, _, .opt h, old => by
    rw [imp_opt]
    exact fails_bind (inside_fails hf h _)
  | _, _, .uptr (ty := ty) (v := v) h, old => by
    have := inside_fails hf h
    rw [imp_uptr]
    cases hn : isNullTree sem v with
    | false => exact fails_bind (this _)
    | true => exact absurd hn (by rw [inside_not_null h]; simp)
  | _, _, .pptr (b := b) (n := n) (c := c) (k := k) (x := x) hx hr hd h, old => by
    have := insideCls_fails hf h
    simp only [imp]; rw [impObj, imp.members, className]
    by_cases hk : sem.key k = polyMarker env cfg.marker b
    · rw [if_neg (by simp [hk])]
      simp only [hx, Res.ok_bind, Res.pure_eq, hr]
      split
      · simp [Fails]
      · rw [hd]; exact fails_bind (this _)
    · rw [if_pos hk]; simp [Fails, throwStd]
  | _, _, .variant (n := n) (c := c) (alts := alts) (k := k) (x := x) hv hx hr hd h, old => by
    have := insideCls_fails hf h
    simp only [imp]; rw [impObj, hv]
    simp only
    rw [imp.members, className]
    by_cases hk : sem.key k = polyMarker env cfg.marker (alts.headD 0)
    · rw [if_neg (by simp [hk])]
      simp only [hx, Res.ok_bind, Res.pure_eq, hr, hd]
      exact fails_bind (this _)
    · rw [if_pos hk]; simp [Fails, throwStd]
theorem insideCls_fails {d : StructDef} {ms : List (K × Tr K X)} (hf : ∀ old, Fails (impMembers sem cfg d (imp.members sem env cfg ms) [] old)) :
    ∀ {d' : StructDef} {ms' : List (K × Tr K X)}, InsideCls sem env cfg d ms d' ms' → ∀ old, Fails (impMembers sem cfg d' (imp.members sem env cfg ms') [] old)
  | _, _, .here, old => hf old
  | _, _, .member hm hs h, old => impMembers_fails sem cfg _ _ _ (mem_members sem env cfg hm) _ hs (inside_fails hf h) [] old
theorem inside_not_null {d : StructDef} {ms : List (K × Tr K X)} : ∀ {ty : Ty} {v : Tr K X}, Inside sem env cfg d ms ty v → isNullTree sem v = false
  | _, _, .cls _ _ => rfl
  | _, _, .vec _ _ => rfl
  | _, _, .arr _ _ => rfl
  | _, _, .tuple _ _ _ _ => rfl
  | _, _, .smap _ _ => rfl
  | _, _, .mmap _ _ => rfl
  | _, _, .umap _ _ => rfl
  | _, _, .opt h => inside_not_null h
  | _, _, .uptr h => inside_not_null h
  | _, _, .pptr _ _ _ _ => rfl
  | _, _, .variant _ _ _ _ _ => rfl
end


/-! ### Unknown and missing members -/

theorem unknown_fails (hs : cfg.strict ≠ .Weak) (d : StructDef) (ms : List (Mem K X)) (m : Mem K X) (h : m ∈ ms) (hn : d.find (sem.key m.key) = none) :
    ∀ found old, Fails (impMembers sem cfg d ms found old) := by
  induction ms with
  | nil => cases h
  | cons a ms ih =>
    intro found old
    rw [impMembers]
    rcases List.mem_cons.mp h with rfl | h
    · rw [hn]; simp only; rw [if_pos hs]; simp [Fails, throwStd]
    · cases d.find (sem.key a.key) with
      | none => simp only; rw [if_pos hs]; simp [Fails, throwStd]
      | some sl =>
        simp only
        cases old.field sl.path sl.index with
        | none => simp [Fails]
        | some w => exact fails_bind' fun v => ih h _ _

mutual
theorem heed_iff (found : List Bytes) : ∀ d : StructDef, d.heed found = true ↔ ∀ m ∈ allMembers d, m.name ∈ found
  | .mk ps ms f => by
    have := heedAll_iff found ps
    rw [StructDef.heed, allMembers]
    simp only [Bool.and_eq_true, this, List.all_eq_true, List.contains_iff_mem, List.mem_append]
    exact ⟨fun h m hm => hm.elim (h.1 m) (h.2 m), fun h => ⟨fun m hm => h m (.inl hm), fun m hm => h m (.inr hm)⟩⟩
theorem heedAll_iff (found : List Bytes) : ∀ ps : List StructDef, StructDef.heed.heedAll found ps = true ↔ ∀ m ∈ allMembers.inherited ps, m.name ∈ found
  | [] => by simp [StructDef.heed.heedAll, allMembers.inherited]
  | p :: ps => by
    have h1 := heed_iff found p
    have h2 := heedAll_iff found ps
    rw [StructDef.heed.heedAll, allMembers.inherited]
    simp only [Bool.and_eq_true, h1, h2, List.mem_append]
    exact ⟨fun h m hm => hm.elim (h.1 m) (h.2 m), fun h => ⟨fun m hm => h m (.inl hm), fun m hm => h m (.inr hm)⟩⟩
end

theorem missing_fails (hs : cfg.strict = .Exact) (d : StructDef) (ms : List (Mem K X)) (n : Member) (hn : n ∈ allMembers d) :
    ∀ found old, n.name ∉ found → (∀ m ∈ ms, sem.key m.key ≠ n.name) → Fails (impMembers sem cfg d ms found old) := by
  induction ms with
  | nil =>
    intro found old h1 h2
    rw [impMembers]
    have : d.heed found = false := by
      rw [← Bool.not_eq_true]; intro hh; exact h1 ((heed_iff found d).mp hh n hn)
    rw [if_pos ⟨hs, this⟩]
    simp [Fails, throwStd]
  | cons a ms ih =>
    intro found old h1 h2
    rw [impMembers]
    cases d.find (sem.key a.key) with
    | none => simp only; rw [if_pos (by rw [hs]; simp)]; simp [Fails, throwStd]
    | some sl =>
      simp only
      cases old.field sl.path sl.index with
      | none => simp [Fails]
      | some w =>
        refine fails_bind' fun v => ih _ _ ?_ fun m hm => h2 m (by simp [hm])
        simp only [List.mem_cons, not_or]
        exact ⟨fun e => h2 a (by simp) e.symm, h1⟩

/-- The same configuration in Strict mode. -/
def Cfg.toStrict (cfg : Cfg) : Cfg := { cfg with strict := .Strict }

theorem impMembers_exact (hs : cfg.strict = .Exact) (d : StructDef) (ms : List (K × Tr K X))
    (hi : ∀ k t, (k, t) ∈ ms → ∀ slot, d.find (sem.key k) = some slot → ∀ old, imp sem env cfg t slot.ty old = imp sem env cfg.toStrict t slot.ty old) :
    ∀ found old, (∀ m ∈ allMembers d, m.name ∈ found ∨ ∃ k t, (k, t) ∈ ms ∧ sem.key k = m.name) →
      impMembers sem cfg d (imp.members sem env cfg ms) found old = impMembers sem cfg.toStrict d (imp.members sem env cfg.toStrict ms) found old := by
  induction ms with
  | nil =>
    intro found old h
    rw [imp.members, imp.members, impMembers, impMembers]
    have : d.heed found = true := (heed_iff found d).mpr fun m hm => by simpa using h m hm
    rw [if_neg (by simp [this]), if_neg (by simp [Cfg.toStrict])]
  | cons m ms ih =>
    obtain ⟨k, t⟩ := m
    intro found old h
    rw [imp.members, imp.members, impMembers, impMembers]
    simp only
    cases hk : d.find (sem.key k) with
    | none => simp only; rw [if_pos (by rw [hs]; simp), if_pos (by simp [Cfg.toStrict])]
    | some slot =>
      simp only
      cases old.field slot.path slot.index with
      | none => rfl
      | some w =>
        simp only
        rw [hi k t (by simp) slot hk]
        congr 1
        funext v
        refine ih (fun k t hm => hi k t (by simp [hm])) _ _ fun m hm => ?_
        rcases h m hm with h | ⟨k', t', hm', e⟩
        · exact .inl (by simp [h])
        · rcases List.mem_cons.mp hm' with e' | hm'
          · cases e'; exact .inl (by simp [e])
          · exact .inr ⟨k', t', hm', e⟩

theorem impVec_congr (k : SeqKind) (t : Ty) (ts : List (Tr K X)) (f g : Tr K X → Imp) (h : ∀ x ∈ ts, ∀ old, f x t old = g x t old) :
    ∀ vs, impVec env k t (ts.map f) vs = impVec env k t (ts.map g) vs := by
  induction ts with
  | nil => intro vs; rfl
  | cons x ts ih =>
    intro vs
    simp only [List.map_cons]
    rw [impVec, impVec, h x (by simp)]
    congr 1; funext v
    exact ih (fun x hx => h x (by simp [hx])) _

theorem impFix_congr (tyAt : Nat → Option Ty) (ts : List (Tr K X)) (f g : Tr K X → Imp) : ∀ i,
    (∀ j x t, ts[j]? = some x → tyAt (i + j) = some t → ∀ old, f x t old = g x t old) →
    ∀ vs, impFix tyAt (ts.map f) i vs = impFix tyAt (ts.map g) i vs := by
  induction ts with
  | nil => intro i _ vs; rfl
  | cons x ts ih =>
    intro i h vs
    simp only [List.map_cons]
    rw [impFix, impFix]
    cases h1 : tyAt i with
    | none => rfl
    | some t =>
      cases h2 : vs[i]? with
      | none => rfl
      | some w =>
        simp only
        rw [h 0 x t (by simp) (by simpa using h1)]
        congr 1; funext v
        exact ih (i + 1) (fun j x t hj ht => h (j + 1) x t (by simpa using hj) (by rw [← ht]; congr 1; omega)) _

theorem impDict_congr (kind : DictKind) (t : Ty) (ms : List (K × Tr K X)) (f g : K × Tr K X → Mem K X) (hk : ∀ m, (f m).key = (g m).key)
    (h : ∀ x ∈ ms, ∀ old, (f x).imp t old = (g x).imp t old) :
    ∀ kvs, impDict sem env kind t (ms.map f) kvs = impDict sem env kind t (ms.map g) kvs := by
  induction ms with
  | nil => intro kvs; rfl
  | cons x ms ih =>
    intro kvs
    simp only [List.map_cons]
    cases kind <;>
    · rw [impDict, impDict, hk]
      try simp only
      rw [h x (by simp)]
      congr 1; funext v
      exact ih (fun x hx => h x (by simp [hx])) _

/-- If every struct position has all its members, Exact mode does what Strict mode does. -/
theorem exact_strict (hs : cfg.strict = .Exact) (v : Tr K X) : ∀ (ty : Ty),
    (∀ d ms, Inside sem env cfg d ms ty v → ∀ m ∈ allMembers d, ∃ k t, (k, t) ∈ ms ∧ sem.key k = m.name) →
    ∀ old, imp sem env cfg v ty old = imp sem env cfg.toStrict v ty old := by
  induction v using Spec.Tr.induct with
  | hs x => intro ty _ old; simp only [imp]
  | ha ts ih =>
    intro ty
    induction ty with
    | opt t iht => intro h old; rw [imp_opt, imp_opt, iht fun d ms hi => h d ms (.opt hi)]
    | uptr t iht => intro h old; rw [imp_uptr, imp_uptr, iht fun d ms hi => h d ms (.uptr hi)]
    | seq k t _ =>
      intro h old
      simp only [imp]
      cases old with
      | list vs =>
        rw [impArr, impArr, elems_eq, elems_eq]
        exact impVec_congr env k t ts _ _ (fun x hx old => ih x hx t (fun d ms hi => h d ms (.vec hx hi)) old) vs
      | _ => rw [impArr, impArr] <;> simp
    | arr n t _ =>
      intro h old
      simp only [imp]
      cases old with
      | list vs =>
        rw [impArr, impArr, elems_eq, elems_eq]
        refine impFix_congr _ ts _ _ 0 (fun j x t' hx ht old => ?_) vs
        split at ht
        · cases ht; exact ih x (List.mem_of_getElem? hx) t (fun d ms hi => h d ms (.arr hx hi)) old
        · cases ht
      | _ => rw [impArr, impArr] <;> simp
    | named n =>
      intro h old
      simp only [imp]
      rw [impArr, impArr]
      cases hd : env.defs n with
      | tuple tys =>
        cases old with
        | list vs =>
          simp only
          rw [elems_eq, elems_eq]
          refine impFix_congr _ ts _ _ 0 (fun j x t' hx ht old => ?_) vs
          simp only [Nat.zero_add] at ht
          exact ih x (List.mem_of_getElem? hx) t' (fun d ms hi => h d ms (.tuple hd ht hx hi)) old
        | _ => rfl
      | _ => rfl
    | _ => intro h old; simp only [imp]; rw [impArr, impArr] <;> simp
  | ho ms ih =>
    have hdict : ∀ (kind : DictKind) (t : Ty), (∀ k x, (k, x) ∈ ms → ∀ old, imp sem env cfg x t old = imp sem env cfg.toStrict x t old) →
        ∀ kvs, impDict sem env kind t (imp.members sem env cfg ms) kvs = impDict sem env kind t (imp.members sem env cfg.toStrict ms) kvs := by
      intro kind t h kvs
      rw [members_eq, members_eq]
      exact impDict_congr sem env kind t ms (fun m => ⟨m.1, m.2, imp sem env cfg m.2⟩) (fun m => ⟨m.1, m.2, imp sem env cfg.toStrict m.2⟩) (fun _ => rfl) (fun x hx old => h x.1 x.2 hx old) kvs
    have hcls : ∀ (d : StructDef) (ms' : List (K × Tr K X)), (∀ m ∈ ms', m ∈ ms) →
        (∀ d' ms'', InsideCls sem env cfg d' ms'' d ms' → ∀ m ∈ allMembers d', ∃ k t, (k, t) ∈ ms'' ∧ sem.key k = m.name) →
        ∀ old, impMembers sem cfg d (imp.members sem env cfg ms') [] old =
          impMembers sem cfg.toStrict d (imp.members sem env cfg.toStrict ms') [] old := by
      intro d ms' hsub h old
      refine impMembers_exact sem env cfg hs d ms' (fun k t hm slot hsl old => ?_) [] old (fun m hm => .inr (h d ms' .here m hm))
      exact ih (k, t) (hsub _ hm) slot.ty (fun d' ms'' hi => h d' ms'' (.member hm hsl hi)) old
    intro ty
    induction ty with
    | opt t iht => intro h old; rw [imp_opt, imp_opt, iht fun d ms hi => h d ms (.opt hi)]
    | uptr t iht => intro h old; rw [imp_uptr, imp_uptr, iht fun d ms hi => h d ms (.uptr hi)]
    | smap t _ =>
      intro h old
      simp only [imp]
      cases old with
      | dict vs =>
        rw [impObj, impObj]
        exact hdict _ t (fun k x hx old => ih (k, x) hx t (fun d ms hi => h d ms (.smap hx hi)) old) vs
      | _ => rw [impObj, impObj] <;> simp
    | mmap t _ =>
      intro h old
      simp only [imp]
      cases old with
      | dict vs =>
        rw [impObj, impObj]
        exact hdict _ t (fun k x hx old => ih (k, x) hx t (fun d ms hi => h d ms (.mmap hx hi)) old) vs
      | _ => rw [impObj, impObj] <;> simp
    | umap t _ =>
      intro h old
      simp only [imp]
      cases old with
      | dict vs =>
        rw [impObj, impObj]
        exact hdict _ t (fun k x hx old => ih (k, x) hx t (fun d ms hi => h d ms (.umap hx hi)) old) vs
      | _ => rw [impObj, impObj] <;> simp
    | pptr b =>
      intro h old
      simp only [imp]
      rw [impObj, impObj]
      show (className sem (polyMarker env cfg.marker b) _ >>= _) = (className sem (polyMarker env cfg.marker b) _ >>= _)
      cases ms with
      | nil => simp only [imp.members, className]; rfl
      | cons m rest =>
        obtain ⟨k, t⟩ := m
        simp only [imp.members, className]
        split
        · rfl
        · cases t with
          | scalar x =>
            cases hx : sem.readStr x with
            | ok name =>
              simp only [hx, Res.ok_bind, Res.pure_eq]
              cases hr : env.registry.lookup name with
              | none => rfl
              | some c =>
                simp only
                split
                · rfl
                · cases hd : env.defs c with
                  | cls cd =>
                    simp only
                    rw [hcls cd.traits rest (fun m hm => by simp [hm]) fun d' ms'' hi => h d' ms'' (.pptr hx hr hd hi)]
                  | _ => rfl
            | throw e => simp only [hx]; rfl
            | ub => simp only [hx]; rfl
          | _ => rfl
    | named n =>
      intro h old
      simp only [imp]
      rw [impObj, impObj]
      cases hd : env.defs n with
      | cls c =>
        simp only
        exact hcls c.traits ms (fun _ h => h) (fun d' ms'' hi => h d' ms'' (.cls hd hi)) old
      | variant alts =>
        simp only
        show (className sem (polyMarker env cfg.marker (alts.headD 0)) _ >>= _) = (className sem (polyMarker env cfg.marker (alts.headD 0)) _ >>= _)
        cases ms with
        | nil => simp only [imp.members, className]; rfl
        | cons m rest =>
          obtain ⟨k, t⟩ := m
          simp only [imp.members, className]
          split
          · rfl
          · cases t with
            | scalar x =>
              cases hx : sem.readStr x with
              | ok name =>
                simp only [hx, Res.ok_bind, Res.pure_eq]
                have hpa : ∀ key l, pickAlt env cfg.toStrict key name l = pickAlt env cfg key name l := by
                  intro key l
                  induction l with
                  | nil => rfl
                  | cons a l ihl => rw [pickAlt, pickAlt, ihl]; rfl
                show (match pickAlt env cfg (polyMarker env cfg.marker (alts.headD 0)) name alts with | some c => _ | none => _) =
                  (match pickAlt env cfg.toStrict (polyMarker env cfg.marker (alts.headD 0)) name alts with | some c => _ | none => _)
                rw [hpa]
                cases hr : pickAlt env cfg (polyMarker env cfg.marker (alts.headD 0)) name alts with
                | none => rfl
                | some c =>
                  simp only
                  cases hd2 : env.defs c with
                  | cls cd =>
                    simp only
                    rw [hcls cd.traits rest (fun m hm => by simp [hm]) fun d' ms'' hi => h d' ms'' (.variant hd hx hr hd2 hi)]
                  | _ => rfl
              | throw e => simp only [hx]; rfl
              | ub => simp only [hx]; rfl
            | _ => rfl
      | _ => rfl
    | _ => intro h old; simp only [imp]; rw [impObj, impObj] <;> simp

end
end Thors
