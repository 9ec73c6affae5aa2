import Verif.Proofs.ImpMono
import Verif.Proofs.FloatRound
import Verif.Spec.Spelling
import Verif.Spec.Stream
/-
Documents that say the same are imported alike.
-/
namespace Thors
open Spec StrIn

section
variable {K X : Type} (sem : ScalarSem K X) (env : Env) (cfg : Cfg)

/-- The same meaning, where everything can be skipped. -/
def allSkip : ScalarSem K X := { sem with skips := fun _ => true, keySkips := fun _ => true }

theorem impScalar_allSkip (x : X) : ∀ (ty : Ty) (old : Val), impScalar (allSkip sem) env x ty old = impScalar sem env x ty old
  | .opt t, old => by rw [impScalar, impScalar, impScalar_allSkip x t]
  | .uptr t, old => by rw [impScalar, impScalar, impScalar_allSkip x t]; rfl
  | .int _, _ | .flt _, _ | .bool, _ | .str, _ | .pptr _, _ | .named _, _ => rfl
  | .seq _ _, _ | .arr _ _, _ | .smap _, _ | .mmap _, _ | .umap _, _ => rfl

theorem impDict_allSkip (kind : DictKind) (t : Ty) : ∀ (ms : List (Mem K X)) (kvs : List (Bytes × Val)), impDict (allSkip sem) env kind t ms kvs = impDict sem env kind t ms kvs
  | [], _ => by simp only [impDict]
  | m :: ms, kvs => by
    cases kind <;> simp only [impDict, impDict_allSkip _ t ms] <;> rfl

theorem impMembers_allSkip (h : cfg.strict ≠ .Weak) (d : StructDef) : ∀ (ms : List (Mem K X)) (found : List Bytes) (old : Val),
    impMembers (allSkip sem) cfg d ms found old = impMembers sem cfg d ms found old
  | [], _, _ => by rw [impMembers, impMembers]
  | m :: ms, found, old => by
    rw [impMembers, impMembers]
    simp only [if_pos h, impMembers_allSkip h d ms]
    rfl

theorem className_allSkip (mk : Bytes) (ms : List (Mem K X)) : className (allSkip sem) mk ms = className sem mk ms := by
  cases ms <;> rfl

theorem impObj_allSkip (h : cfg.strict ≠ .Weak) (ms : List (Mem K X)) : ∀ (ty : Ty) (old : Val), impObj (allSkip sem) env cfg ms ty old = impObj sem env cfg ms ty old
  | .opt t, old => by simp only [impObj, impObj_allSkip h ms t]
  | .uptr t, old => by simp only [impObj, impObj_allSkip h ms t]
  | .smap t, old => by cases old <;> simp only [impObj, impDict_allSkip]
  | .mmap t, old => by cases old <;> simp only [impObj, impDict_allSkip]
  | .umap t, old => by cases old <;> simp only [impObj, impDict_allSkip]
  | .pptr b, old => by simp only [impObj, className_allSkip, impMembers_allSkip sem cfg h]
  | .named i, old => by simp only [impObj, className_allSkip, impMembers_allSkip sem cfg h]
  | .int _, _ | .flt _, _ | .bool, _ | .str, _ | .seq _ _, _ | .arr _ _, _ => by simp only [impObj]

mutual
/-- Outside of Weak mode nothing is skipped. -/
theorem imp_allSkip (h : cfg.strict ≠ .Weak) : ∀ v : Tr K X, imp (allSkip sem) env cfg v = imp sem env cfg v
  | .scalar x => by
    funext ty old
    rw [imp, imp, impScalar_allSkip]
  | .arr ts => by rw [imp, imp, elems_allSkip h ts]
  | .obj ms => by
    funext ty old
    rw [imp, imp, members_allSkip h ms, impObj_allSkip sem env cfg h]
theorem elems_allSkip (h : cfg.strict ≠ .Weak) : ∀ ts : List (Tr K X), imp.elems (allSkip sem) env cfg ts = imp.elems sem env cfg ts
  | [] => by rw [imp.elems, imp.elems]
  | t :: ts => by rw [imp.elems, imp.elems, imp_allSkip h t, elems_allSkip h ts]
theorem members_allSkip (h : cfg.strict ≠ .Weak) : ∀ ms : List (K × Tr K X), imp.members (allSkip sem) env cfg ms = imp.members sem env cfg ms
  | [] => by rw [imp.members, imp.members]
  | (k, t) :: ms => by rw [imp.members, imp.members, imp_allSkip h t, members_allSkip h ms]
end
end

theorem Ty.ints_any : ∀ ty : Ty, ty.ints (fun _ => True) (fun _ => True)
  | .seq _ t | .arr _ t | .opt t | .uptr t | .smap t | .mmap t | .umap t => by rw [Ty.ints]; exact ints_any t
  | .int _ | .flt _ | .bool | .str | .pptr _ | .named _ => by simp [Ty.ints]

theorem Env.ints_any (env : Env) : env.ints (fun _ => True) (fun _ => True) := by
  intro i
  split
  · exact fun _ s _ => s.ty.ints_any
  · exact fun t _ => t.ints_any
  · trivial

/-- Scalars that say the same are read alike. -/
theorem words_readLike (sem2 : ScalarSem JStr JScalar) (hs : sem2 = { jsem true with skips := sem2.skips, keySkips := sem2.keySkips }) :
    ReadsLike (fun _ => True) (fun _ => True) (jsem true) sem2 (fun k l => k.dec = l.dec ∧ sem2.keySkips l = true) (fun x y => SameWord x y ∧ sem2.skips y = true) where
  key k l h := by rw [hs]; exact h.1
  keySkips k l h _ := h.2
  null x y h := by
    rw [hs]
    cases x <;> cases y <;> first | exact h.1.elim | rfl
  int x y k i _ h e := by
    rw [hs]
    cases x <;> cases y <;> first | exact h.1.elim | skip
    all_goals first | (cases e; done) | skip
    obtain ⟨⟨rfl, hm⟩, -⟩ := h
    simpa only [jsem, hm] using e
  flt x y f v _ h e := by
    rw [hs]
    cases x <;> cases y <;> first | exact h.1.elim | skip
    all_goals first | (cases e; done) | skip
    · obtain ⟨⟨rfl, hm⟩, -⟩ := h
      simpa only [jsem, JScalar.number, hm] using e
    · have := toFlt_same f h.1
      simpa only [jsem, JScalar.number, this] using e
  bool x y b h e := by
    rw [hs]
    cases x <;> cases y <;> first | exact h.1.elim | skip
    all_goals first | (cases e; done) | skip
    obtain ⟨rfl, -⟩ := h
    exact e
  str x y s h e := by
    rw [hs]
    cases x <;> cases y <;> first | exact h.1.elim | skip
    all_goals first | (cases e; done) | skip
    rw [← e]
    exact congrArg Res.ok h.1.symm
  skips x y h _ := h.2

mutual
theorem words_shape (sem2 : ScalarSem JStr JScalar) : ∀ v u : JTree, SameWords v u → u.skippable sem2 = true →
    SameShape (fun k l : JStr => k.dec = l.dec ∧ sem2.keySkips l = true) (fun x y : JScalar => SameWord x y ∧ sem2.skips y = true) v u
  | .scalar x, .scalar y, h, hs => ⟨h, hs⟩
  | .arr ts, .arr us, h, hs => words_elems sem2 ts us h hs
  | .obj ms, .obj ns, h, hs => words_members sem2 ms ns h hs
  | .scalar _, .arr _, h, _ => h.elim
  | .scalar _, .obj _, h, _ => h.elim
  | .arr _, .scalar _, h, _ => h.elim
  | .arr _, .obj _, h, _ => h.elim
  | .obj _, .scalar _, h, _ => h.elim
  | .obj _, .arr _, h, _ => h.elim
theorem words_elems (sem2 : ScalarSem JStr JScalar) : ∀ v u : List JTree, SameWords.elems v u → Tr.skippable.all sem2 u = true →
    SameShape.elems (fun k l : JStr => k.dec = l.dec ∧ sem2.keySkips l = true) (fun x y : JScalar => SameWord x y ∧ sem2.skips y = true) v u
  | [], [], _, _ => trivial
  | t :: ts, u :: us, h, hs => by
    simp only [Tr.skippable.all, Bool.and_eq_true] at hs
    exact ⟨words_shape sem2 t u h.1 hs.1, words_elems sem2 ts us h.2 hs.2⟩
  | [], _ :: _, h, _ => h.elim
  | _ :: _, [], h, _ => h.elim
theorem words_members (sem2 : ScalarSem JStr JScalar) : ∀ v u : List (JStr × JTree), SameWords.members v u → Tr.skippable.allM sem2 u = true →
    SameShape.members (fun k l : JStr => k.dec = l.dec ∧ sem2.keySkips l = true) (fun x y : JScalar => SameWord x y ∧ sem2.skips y = true) v u
  | [], [], _, _ => trivial
  | (k, t) :: ts, (l, u) :: us, h, hs => by
    simp only [Tr.skippable.allM, Bool.and_eq_true] at hs
    exact ⟨⟨h.1, hs.1.1⟩, words_shape sem2 t u h.2.1 hs.1.2, words_members sem2 ts us h.2.2 hs.2⟩
  | [], _ :: _, h, _ => h.elim
  | _ :: _, [], h, _ => h.elim
end

mutual
theorem allSkip_skippable {K X : Type} (sem : ScalarSem K X) : ∀ v : Tr K X, v.skippable (allSkip sem) = true
  | .scalar _ => rfl
  | .arr ts => allSkip_all sem ts
  | .obj ms => allSkip_allM sem ms
theorem allSkip_all {K X : Type} (sem : ScalarSem K X) : ∀ v : List (Tr K X), Tr.skippable.all (allSkip sem) v = true
  | [] => rfl
  | t :: ts => by rw [Tr.skippable.all, allSkip_skippable sem t, allSkip_all sem ts]; rfl
theorem allSkip_allM {K X : Type} (sem : ScalarSem K X) : ∀ v : List (K × Tr K X), Tr.skippable.allM (allSkip sem) v = true
  | [] => rfl
  | (k, t) :: ts => by rw [Tr.skippable.allM, allSkip_skippable sem t, allSkip_allM sem ts]; rfl
end

/-- What one document gives, another that says the same gives. -/
theorem words_imp (env : Env) (cfg : Cfg) {v u : JTree} (h : SameWords v u) (hs : cfg.strict = .Weak → u.skippable (jsem true) = true) (ty : Ty) (old x : Val)
    (e : imp (jsem true) env cfg v ty old = .ok x) : imp (jsem true) env cfg u ty old = .ok x := by
  by_cases hw : cfg.strict = .Weak
  · exact imp_mono env cfg env.ints_any (words_readLike (jsem true) rfl) v u (words_shape _ v u h (hs hw)) ty old ty.ints_any x e
  · rw [← imp_allSkip (jsem true) env cfg hw u]
    exact imp_mono env cfg env.ints_any (words_readLike (allSkip (jsem true)) rfl) v u (words_shape _ v u h (allSkip_skippable _ u)) ty old ty.ints_any x e

/-- Scalars that say the same are read alike from streams. -/
theorem words_readLikeS (sem2 : ScalarSem JStr JScalar) (hs : sem2 = { jssem true with skips := sem2.skips, keySkips := sem2.keySkips }) :
    ReadsLike (fun _ => True) (fun _ => True) (jssem true) sem2 (fun k l => k.dec = l.dec ∧ sem2.keySkips l = true) (fun x y => SameWord x y ∧ sem2.skips y = true) where
  key k l h := by rw [hs]; exact h.1
  keySkips k l h _ := h.2
  null x y h := by
    rw [hs]
    cases x <;> cases y <;> first | exact h.1.elim | rfl
  int x y k i _ h e := by
    rw [hs]
    cases x <;> cases y <;> first | exact h.1.elim | skip
    all_goals first | (cases e; done) | skip
    obtain ⟨⟨rfl, hm⟩, -⟩ := h
    simpa only [jssem, streamInt, hm] using e
  flt x y f v _ h e := by
    rw [hs]
    cases x <;> cases y <;> first | exact h.1.elim | skip
    all_goals first | (cases e; done) | skip
    · obtain ⟨⟨rfl, hm⟩, -⟩ := h
      simpa only [jssem, JScalar.number, hm] using e
    · have := round_same f h.1
      have h2 := h.1.1
      simpa only [jssem, JScalar.number, streamFlt, this, h2] using e
  bool x y b h e := by
    rw [hs]
    cases x <;> cases y <;> first | exact h.1.elim | skip
    all_goals first | (cases e; done) | skip
    obtain ⟨rfl, -⟩ := h
    exact e
  str x y s h e := by
    rw [hs]
    cases x <;> cases y <;> first | exact h.1.elim | skip
    all_goals first | (cases e; done) | skip
    rw [← e]
    exact congrArg Res.ok h.1.symm
  skips x y h _ := h.2

/-- What one document in a stream gives, another that says the same gives. -/
theorem words_impS (env : Env) (cfg : Cfg) {v u : JTree} (h : SameWords v u) (hs : cfg.strict = .Weak → u.skippable (jssem true) = true) (ty : Ty) (old x : Val)
    (e : imp (jssem true) env cfg v ty old = .ok x) : imp (jssem true) env cfg u ty old = .ok x := by
  by_cases hw : cfg.strict = .Weak
  · exact imp_mono env cfg env.ints_any (words_readLikeS (jssem true) rfl) v u (words_shape _ v u h (hs hw)) ty old ty.ints_any x e
  · rw [← imp_allSkip (jssem true) env cfg hw u]
    exact imp_mono env cfg env.ints_any (words_readLikeS (allSkip (jssem true)) rfl) v u (words_shape _ v u h (allSkip_skippable _ u)) ty old ty.ints_any x e

end Thors
