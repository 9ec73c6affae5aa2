import Verif.Spec.Fits
import Verif.Proofs.Typed
import Verif.Proofs.Ends
/-
The import of a document that has room in the type does nothing undefined.
-/
namespace Thors
open Thors.Spec StrIn

variable {K X : Type} {sem : ScalarSem K X} {env : Env} {cfg : Cfg} {ok : Ty → X → Prop}

/-- What is asked of the scalars of a format. -/
structure Good (sem : ScalarSem K X) (ok : Ty → X → Prop) (x : X) : Prop where
  int : ∀ k, ok (.int k) x → Safe (fun i => 0 < k.bits → InRange k i) (sem.readInt k x)
  flt : ∀ f, ok (.flt f) x → Safe (fun y => f ∈ [f32, f64, f80] → IsFlt f y) (sem.readFlt f x)
  bool : sem.readBool x ≠ .ub
  str : sem.readStr x ≠ .ub

theorem safe_any {α : Type} {r : Res α} (h : r ≠ .ub) : Safe (fun _ => True) r := Safe.of (yields_any r) h

/-- The function reads values of the type, and does nothing undefined. -/
def ReadsAs (env : Env) (ty : Ty) (e : Imp) : Prop := ∀ old, HasType env ty old → Safe (HasType env ty) (e ty old)

theorem contentOr_typed (D : DefaultsTyped env) {t : Ty} {old : Val} (h : HasType env (.opt t) old) : HasType env t (old.contentOr (t.default env)) := by
  cases old <;> simp only [HasType] at h <;> first | exact h | exact default_typed D t

theorem impScalar_safe (D : DefaultsTyped env) {x : X} (hx : Good sem ok x) : ∀ ty, ok (bare ty) x → ReadsAs env ty (impScalar sem env x)
  | .int k, h, old, ho => (hx.int k h).bind fun i hi => by exact hi
  | .flt f, h, old, ho => (hx.flt f h).bind fun i hi => by exact hi
  | .bool, h, old, ho => (safe_any hx.bool).bind fun i _ => by exact trivial
  | .str, h, old, ho => (safe_any hx.str).bind fun i _ => by exact trivial
  | .opt t, h, old, ho => (impScalar_safe D hx t h _ (contentOr_typed D ho)).bind fun v hv => by exact hv
  | .uptr t, h, old, ho => by
    unfold impScalar
    split
    · exact trivial
    · exact (impScalar_safe D hx t h _ (default_typed D t)).bind fun v hv => by exact hv
  | .pptr b, h, old, ho => by
    unfold impScalar
    split
    · exact trivial
    · exact trivial
  | .named i, h, old, ho => by
    unfold impScalar
    split
    · next table he =>
      refine (safe_any hx.str).bind fun s _ => ?_
      split
      · next v hv =>
        show HasType env (.named i) (.enum v)
        simp only [HasType, he]
        exact enumOf_mem hv
      · exact trivial
    · exact trivial
  | .seq _ _, _, _, _ => trivial
  | .arr _ _, _, _, _ => trivial
  | .smap _, _, _, _ => trivial
  | .mmap _, _, _, _ => trivial
  | .umap _, _, _, _ => trivial

theorem impVec_safe (D : DefaultsTyped env) {c : SeqKind} {t : Ty} : ∀ (es : List Imp) (vs : List Val), (∀ e ∈ es, ReadsAs env t e) → HasType env (.seq c t) (.list vs) →
    Safe (HasType env (.seq c t)) (impVec env c t es vs)
  | [], vs, _, h => h
  | e :: es, vs, he, h => by
    unfold impVec
    refine (he e (by simp) _ (default_typed D t)).bind fun v hv => ?_
    simp only [HasType] at h
    exact impVec_safe D es _ (fun e he' => he e (by simp [he'])) (seqInsert_typed c h.1 h.2 hv)

theorem impFix_safe {tyAt : Nat → Option Ty} : ∀ (es : List Imp) (i : Nat) (vs : List Val),
    (∀ (j : Nat) (e : Imp), es[j]? = some e → ∃ ty, tyAt (i + j) = some ty ∧ ReadsAs env ty e) → i + es.length ≤ vs.length → FixHas env tyAt vs →
    Safe (fun v => ∃ ws, v = .list ws ∧ ws.length = vs.length ∧ FixHas env tyAt ws) (impFix tyAt es i vs)
  | [], i, vs, _, _, h => ⟨vs, rfl, rfl, h⟩
  | e :: es, i, vs, he, hl, h => by
    obtain ⟨ty, ht, hr⟩ := he 0 e rfl
    rw [Nat.add_zero] at ht
    have hi : i < vs.length := by simp at hl; omega
    unfold impFix
    rw [ht, List.getElem?_eq_getElem hi]
    dsimp only
    refine (hr _ (h i ty _ ht (List.getElem?_eq_getElem hi))).bind fun v hv => ?_
    refine (impFix_safe es (i + 1) (vs.set i v) (fun j e' hj => ?_) (by simp at hl ⊢; omega) (fixHas_set h ht hv)).mono fun w ⟨ws, h1, h2, h3⟩ => ⟨ws, h1, by simpa using h2, h3⟩
    have := he (j + 1) e' (by simpa using hj)
    rwa [show i + (j + 1) = i + 1 + j from by omega] at this

theorem impArr_safe (D : DefaultsTyped env) {ts : List (Tr K X)} {es : List Imp} (hlen : es.length = ts.length)
    (hel : ∀ tyAt, Fits.elems sem env ok tyAt 0 ts → ∀ (j : Nat) (e : Imp), es[j]? = some e → ∀ ty, tyAt j = some ty → ReadsAs env ty e) :
    ∀ ty, Fits sem env ok (.arr ts) ty → ReadsAs env ty (impArr env es)
  | .seq c t, h, old, ho => by
    simp only [Fits, bare] at h
    cases old <;> simp only [HasType] at ho
    refine impVec_safe D es _ (fun e he => ?_) ho
    obtain ⟨j, hj, rfl⟩ := List.getElem_of_mem he
    exact hel _ h j _ (List.getElem?_eq_getElem hj) t rfl
  | .arr n t, h, old, ho => by
    simp only [Fits, bare] at h
    cases old <;> simp only [HasType] at ho
    rename_i vs
    refine (impFix_safe es 0 vs (fun j e hj => ⟨t, ?_, hel _ h.2 j e hj t rfl⟩) (by omega) ((fixHas_arr ho.1).2 ho.2)).mono fun v ⟨ws, h1, h2, h3⟩ => ?_
    · have : j < es.length := (List.getElem?_eq_some_iff.1 hj).1
      exact if_pos (by omega)
    · subst h1
      exact ⟨h2.trans ho.1, (fixHas_arr (h2.trans ho.1)).1 h3⟩
  | .opt t, h, old, ho => by
    simp only [impArr]
    exact (impArr_safe D hlen hel t (by simpa only [Fits, bare] using h) _ (contentOr_typed D ho)).bind fun v hv => by exact hv
  | .uptr t, h, old, ho => by
    simp only [impArr]
    exact (impArr_safe D hlen hel t (by simpa only [Fits, bare] using h) _ (default_typed D t)).bind fun v hv => by exact hv
  | .named i, h, old, ho => by
    simp only [impArr]
    split
    · next tys he =>
      simp only [Fits, bare, he] at h
      cases old <;> simp only [HasType, he] at ho
      rename_i vs
      have hf := fixHas_tuple.2 ho
      dsimp only
      refine (impFix_safe es 0 vs (fun j e hj => ?_) (by omega) hf.2).mono fun v ⟨ws, h1, h2, h3⟩ => ?_
      · have hj' : j < es.length := (List.getElem?_eq_some_iff.1 hj).1
        have : j < tys.length := by omega
        exact ⟨tys[j], by rw [Nat.zero_add]; exact List.getElem?_eq_getElem this, hel _ h.2 j e hj _ (List.getElem?_eq_getElem this)⟩
      · subst h1
        simp only [HasType, he]
        exact fixHas_tuple.1 ⟨h2.trans hf.1, h3⟩
    · exact trivial
  | .int _, _, _, _ => trivial
  | .flt _, _, _, _ => trivial
  | .bool, _, _, _ => trivial
  | .str, _, _, _ => trivial
  | .smap _, _, _, _ => trivial
  | .mmap _, _, _, _ => trivial
  | .umap _, _, _, _ => trivial
  | .pptr _, _, _, _ => trivial

/-- The members that have a place in the type can be read into it. -/
def ReadsMem (sem : ScalarSem K X) (env : Env) (tyOf : Bytes → Option Ty) (ms : List (Mem K X)) : Prop :=
  ∀ m ∈ ms, ∀ ty, tyOf (sem.key m.key) = some ty → ReadsAs env ty m.imp

theorem impDict_safe (D : DefaultsTyped env) {kind : DictKind} {t : Ty} : ∀ (ms : List (Mem K X)) (kvs : List (Bytes × Val)), ReadsMem sem env (fun _ => some t) ms →
    DictHas env t kvs → InKeyOrder kind kvs → Safe (fun v => ∃ kvs, v = .dict kvs ∧ DictHas env t kvs ∧ InKeyOrder kind kvs) (impDict sem env kind t ms kvs)
  | [], kvs, _, h, ho => ⟨kvs, rfl, h, ho⟩
  | m :: ms, kvs, hm, h, ho => by
    have hm0 := hm m (by simp) t rfl
    have hm' : ReadsMem sem env (fun _ => some t) ms := fun m' h' => hm m' (by simp [h'])
    unfold impDict
    cases kind with
    | sorted =>
      dsimp only
      refine (hm0 _ ?_).bind fun v hv => impDict_safe D ms _ hm' (dictSet_typed hv h) (Props.ascending_dictSet ho)
      cases he : dictGet (sem.key m.key) kvs with
      | none => exact default_typed D t
      | some w => exact dictGet_typed h he
    | multi =>
      dsimp only
      exact (hm0 _ (default_typed D t)).bind fun v hv => impDict_safe D ms _ hm' (multiInsert_typed hv h) (Props.order_multi ho)
    | unordered =>
      dsimp only
      exact (hm0 _ (default_typed D t)).bind fun v hv => impDict_safe D ms _ hm' (uniqueInsert_typed hv h) (Props.nodup_unique ho)

theorem impMembers_safe {d : StructDef} : ∀ (ms : List (Mem K X)) (found : List Bytes) (old : Val), ReadsMem sem env (memberType d) ms →
    (cfg.strict = .Weak → ∀ m ∈ ms, m.tree.skippable sem = true) → ClsHas env d old → Safe (ClsHas env d) (impMembers sem cfg d ms found old)
  | [], found, old, _, _, ho => by
    unfold impMembers
    split
    · exact trivial
    · exact ho
  | m :: ms, found, old, hm, hw, ho => by
    have hm' : ReadsMem sem env (memberType d) ms := fun m' h' => hm m' (by simp [h'])
    have hw' : cfg.strict = .Weak → ∀ m ∈ ms, m.tree.skippable sem = true := fun e m' h' => hw e m' (by simp [h'])
    unfold impMembers
    split
    · split
      · exact trivial
      · next hs =>
        rw [if_neg (by simp [hw (Classical.not_not.1 hs) m (by simp)])]
        exact impMembers_safe ms found old hm' hw' ho
    · next slot hf =>
      obtain ⟨w, h1, h2, h3⟩ := find_typed d old slot ho hf
      rw [h1]
      dsimp only
      exact (hm m (by simp) slot.ty (by simp [memberType, hf]) _ h2).bind fun v hv => impMembers_safe ms _ _ hm' hw' (h3 v hv)

theorem className_safe {mk : Bytes} : ∀ (ms : List (K × Tr K X)), AllScalars (Good sem ok) (.obj ms) →
    Safe (fun x => (∀ m ∈ x.2, m ∈ imp.members sem env cfg ms) ∧ ∀ c, env.registry.lookup x.1 = some c → namedClass sem env ms = some c)
      (className sem mk (imp.members sem env cfg ms))
  | [], _ => by simp only [imp.members, className]; exact trivial
  | (k, t) :: ms, h => by
    simp only [imp.members, className]
    split
    · exact trivial
    · cases t with
      | scalar x =>
        dsimp only
        simp only [AllScalars, AllScalars.members] at h
        cases hr : sem.readStr x with
        | ub => exact h.1.str hr
        | throw e => exact trivial
        | ok s => exact ⟨fun m hm => List.mem_cons_of_mem _ hm, fun c hc => by simp only [namedClass, hr]; exact hc⟩
      | arr ts => exact trivial
      | obj ms => exact trivial

theorem impObj_safe (D : DefaultsTyped env) (C : ClassesKnown env) {ms : List (K × Tr K X)} (hg : AllScalars (Good sem ok) (.obj ms))
    (hw : cfg.strict = .Weak → ∀ m ∈ imp.members sem env cfg ms, m.tree.skippable sem = true)
    (hel : ∀ tyOf, Fits.members sem env ok tyOf ms → ReadsMem sem env tyOf (imp.members sem env cfg ms)) :
    ∀ ty, Fits sem env ok (.obj ms) ty → ReadsAs env ty (impObj sem env cfg (imp.members sem env cfg ms))
  | .smap t, h, old, ho => by
    simp only [Fits, bare] at h
    cases old <;> simp only [HasType] at ho
    refine (impDict_safe (kind := .sorted) D _ _ (hel _ h) ho.1 ho.2).mono ?_
    rintro v ⟨kvs, rfl, h1, h2⟩
    exact ⟨h1, h2⟩
  | .mmap t, h, old, ho => by
    simp only [Fits, bare] at h
    cases old <;> simp only [HasType] at ho
    refine (impDict_safe (kind := .multi) D _ _ (hel _ h) ho.1 ho.2).mono ?_
    rintro v ⟨kvs, rfl, h1, h2⟩
    exact ⟨h1, h2⟩
  | .umap t, h, old, ho => by
    simp only [Fits, bare] at h
    cases old <;> simp only [HasType] at ho
    refine (impDict_safe (kind := .unordered) D _ _ (hel _ h) ho.1 ho.2).mono ?_
    rintro v ⟨kvs, rfl, h1, h2⟩
    exact ⟨h1, h2⟩
  | .opt t, h, old, ho => by
    simp only [impObj]
    exact (impObj_safe D C hg hw hel t (by simpa only [Fits, bare] using h) _ (contentOr_typed D ho)).bind fun v hv => by exact hv
  | .uptr t, h, old, ho => by
    simp only [impObj]
    exact (impObj_safe D C hg hw hel t (by simpa only [Fits, bare] using h) _ (default_typed D t)).bind fun v hv => by exact hv
  | .pptr b, h, old, ho => by
    simp only [Fits, bare] at h
    simp only [impObj]
    refine (className_safe ms hg).bind fun x hx => ?_
    obtain ⟨name, ms'⟩ := x
    dsimp only at hx ⊢
    split
    · exact trivial
    · next c hc =>
      obtain ⟨hd, hm⟩ := h c (hx.2 c hc)
      rw [if_neg (by simp [hd])]
      obtain ⟨n, hn⟩ := lookup_mem _ _ hc
      obtain ⟨d, hcd⟩ := C.registry n c hn
      rw [hcd]
      dsimp only
      refine (impMembers_safe ms' [] _ (fun m hm' => hel _ (hm d hcd) m (hx.1 m hm')) (fun e m hm' => hw e m (hx.1 m hm')) ((hasType_cls hcd _).1 (D c))).bind fun v hv => ?_
      exact ⟨hd, (hasType_cls hcd v).2 hv⟩
  | .named i, h, old, ho => by
    simp only [impObj]
    split
    · next d he =>
      simp only [Fits, bare, he] at h
      exact (impMembers_safe _ [] _ (hel _ h) hw ((hasType_cls he _).1 ho)).mono fun v hv => (hasType_cls he v).2 hv
    · next alts he =>
      simp only [Fits, bare, he] at h
      refine (className_safe ms hg).bind fun x hx => ?_
      obtain ⟨name, ms'⟩ := x
      dsimp only at hx ⊢
      split
      · next c hc =>
        have hin := pickAlt_among hc
        obtain ⟨d, hcd⟩ := C.alts i alts he c hin
        rw [hcd]
        dsimp only
        refine (impMembers_safe ms' [] _ (fun m hm' => hel _ (h c hin d hcd) m (hx.1 m hm')) (fun e m hm' => hw e m (hx.1 m hm')) ((hasType_cls hcd _).1 (D c))).bind fun v hv => ?_
        show HasType env (.named i) (.alt c v)
        simp only [HasType, he]
        exact ⟨hin, (hasType_cls hcd v).2 hv⟩
      · exact trivial
    · exact trivial
  | .int _, _, _, _ => trivial
  | .flt _, _, _, _ => trivial
  | .bool, _, _, _ => trivial
  | .str, _, _, _ => trivial
  | .seq _ _, _, _, _ => trivial
  | .arr _ _, _, _, _ => trivial

theorem elems_length : ∀ ts : List (Tr K X), (imp.elems sem env cfg ts).length = ts.length
  | [] => rfl
  | t :: ts => by simp [imp.elems, elems_length ts]

mutual
theorem imp_safe (D : DefaultsTyped env) (C : ClassesKnown env) : ∀ t : Tr K X, AllScalars (Good sem ok) t → (cfg.strict = .Weak → t.skippable sem = true) →
    ∀ ty, Fits sem env ok t ty → ReadsAs env ty (imp sem env cfg t)
  | .scalar x, hg, hw, ty, h => by
    rw [imp]
    exact impScalar_safe D (by simpa only [AllScalars] using hg) ty (by simpa only [Fits] using h)
  | .arr ts, hg, hw, ty, h => by
    rw [imp]
    refine impArr_safe D (elems_length ts) (fun tyAt hf j e hj ty ht => ?_) ty h
    exact imp_safe_elems D C ts (by simpa only [AllScalars] using hg) (fun e => by simpa only [Tr.skippable] using hw e) tyAt 0 hf j e hj ty (by simpa using ht)
  | .obj ms, hg, hw, ty, h => by
    rw [imp]
    have := imp_safe_members D C ms (by simpa only [AllScalars] using hg) (fun e => by simpa only [Tr.skippable] using hw e)
    exact impObj_safe D C hg this.1 this.2 ty h
theorem imp_safe_elems (D : DefaultsTyped env) (C : ClassesKnown env) : ∀ ts : List (Tr K X), AllScalars.elems (Good sem ok) ts →
    (cfg.strict = .Weak → Tr.skippable.all sem ts = true) → ∀ tyAt i, Fits.elems sem env ok tyAt i ts →
    ∀ (j : Nat) (e : Imp), (imp.elems sem env cfg ts)[j]? = some e → ∀ ty, tyAt (i + j) = some ty → ReadsAs env ty e
  | [], _, _, _, _, _, j, e, hj, _, _ => by simp [imp.elems] at hj
  | t :: ts, hg, hw, tyAt, i, hf, j, e, hj, ty, ht => by
    simp only [AllScalars.elems] at hg
    simp only [Fits.elems] at hf
    simp only [Tr.skippable.all, Bool.and_eq_true] at hw
    simp only [imp.elems] at hj
    cases j with
    | zero =>
      simp only [List.getElem?_cons_zero, Option.some.injEq] at hj
      subst hj
      exact imp_safe D C t hg.1 (fun e => (hw e).1) ty (hf.1 ty ht)
    | succ j =>
      exact imp_safe_elems D C ts hg.2 (fun e => (hw e).2) tyAt (i + 1) hf.2 j e (by simpa using hj) ty (by rw [← ht]; congr 1; omega)
theorem imp_safe_members (D : DefaultsTyped env) (C : ClassesKnown env) : ∀ ms : List (K × Tr K X), AllScalars.members (Good sem ok) ms →
    (cfg.strict = .Weak → Tr.skippable.allM sem ms = true) →
    (cfg.strict = .Weak → ∀ m ∈ imp.members sem env cfg ms, m.tree.skippable sem = true) ∧
    ∀ tyOf, Fits.members sem env ok tyOf ms → ReadsMem sem env tyOf (imp.members sem env cfg ms)
  | [], _, _ => by simp [imp.members, ReadsMem]
  | (k, t) :: ms, hg, hw => by
    simp only [AllScalars.members] at hg
    simp only [Tr.skippable.allM, Bool.and_eq_true] at hw
    have ih := imp_safe_members D C ms hg.2 (fun e => (hw e).2)
    refine ⟨fun e m hm => ?_, fun tyOf hf m hm ty ht => ?_⟩
    · simp only [imp.members, List.mem_cons] at hm
      rcases hm with rfl | hm
      · exact (hw e).1.2
      · exact ih.1 e m hm
    · simp only [Fits.members] at hf
      simp only [imp.members, List.mem_cons] at hm
      rcases hm with rfl | hm
      · exact imp_safe D C t hg.1 (fun e => (hw e).1.2) ty (hf.1 ty ht)
      · exact ih.2 tyOf hf.2 m hm ty ht
end

end Thors
