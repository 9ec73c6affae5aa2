import Verif.Proofs.SharedJson
import Verif.Props.RoundTrip
/-
C35: shared pointers keep their sharing.
-/
namespace Thors.Props
open Thors Spec StrIn

/-- C35, for graphs without cycles. Take any value `v` with shared pointers in it and any memory `H`: sequences and
objects of handles, null handles, several handles to one object, objects that hold handles themselves. The export
succeeds and writes the document `d` in which the data of every object that can be reached is written once: `SDoc` writes the data
of an object the first time and adds it to `done`; `done` has no duplicates and consists of the reachable objects. Importing the
text gives the same graph: `φ` says which new object stands for an old one; the value and each object hold the same
data and the same handles (`rename φ`); two objects of the graph become the same object only if they were the
same; and no other object was made. So two imported handles point to the same object exactly when the exported ones did. -/
theorem C35_same_graph_partial (S : SEnv) (pcfg : PrintCfg) (cfg : Cfg) (cell : Nat → STy) (H : Nat → SVal) (t : STy) (v : SVal) (post : Bytes)
    (hg : GoodTypes S.env) (hnf : ∀ i c, S.env.defs i = .cls c → NoFilter c.traits) (hm : cfg.marker = pcfg.marker) (hx : cfg.strict ≠ .Exact)
    (hc : GoodClasses S) (hck : ∀ c, ∀ m ∈ S.classes c, cleanKey m.1)
    (ht : STyped S pcfg.marker cell cleanKey sixAtom t v)
    (hh : ∀ a, Reach H v a → STyped S pcfg.marker cell cleanKey sixAtom (cell a) (H a))
    (hcy : NoCycles H v) (hs : Separate H v) :
    ∃ d done, SDoc S pcfg.marker H t v [] d done ∧ done.Nodup ∧ (∀ a, a ∈ done ↔ Reach H v a) ∧
      (FitsIndent pcfg (nesting d) → mayFollow d post → ∃ text φ st p, sjsonExport S pcfg.marker H pcfg t v = .ok text ∧
        JDoc codePair (jtree streamText d) text ∧
        simportValue JsonP.ops S cfg t (PI.init (JsonP.ofBytes (text ++ post) true)) = .ok ((rename φ v, st), p) ∧
        p.inner.lex.inp.rest = post ∧
        (∀ a, Reach H v a → st.heap[φ a]? = some (rename φ (H a))) ∧
        (∀ a b, Reach H v a → Reach H v b → φ a = φ b → a = b) ∧
        (∀ i, i < st.heap.length → ∃ a, Reach H v a ∧ φ a = i)) := by
  obtain ⟨d, done, h1, h2, h3, h4⟩ := shared_round_trip S pcfg cfg cell H t v post hg hnf hm hx hc hck ht hh hcy hs
  exact ⟨d, done, h1, h2, h3, fun hf hp => h4 hf (mayFollow_ends hp)⟩

/-! A sample: `struct Item { int id; std::shared_ptr<Item> next; }`. -/

def shEnv : SEnv where
  env := rtEnv
  classes
    | 0 => [(b!"id", .plain Samples.int32), (b!"next", .shared (.cls 0))]
    | _ => []

theorem shEnv_classes : GoodClasses shEnv := by
  intro c
  match c with
  | 0 => decide
  | n + 1 => simp [shEnv]

theorem shEnv_keys : ∀ c, ∀ m ∈ shEnv.classes c, cleanKey m.1 := by
  intro c m hm
  match c with
  | 0 =>
    simp only [shEnv, List.mem_cons, List.not_mem_nil, or_false] at hm
    rcases hm with rfl | rfl <;> decide
  | n + 1 => simp [shEnv] at hm

/-- `std::vector<std::shared_ptr<Item>> v = {x, y, nullptr, x}` with `y->next = x`; the objects are at 1000 (x) and
2000 (y), the handles at 11, 12, 13, 14 and inside the objects. -/
def shVal : SVal := .list [.handle 11 (some 1000), .handle 12 (some 2000), .handle 13 none, .handle 14 (some 1000)]
def shHeap : Nat → SVal
  | 1000 => .obj [.plain (.int 1), .handle 1004 none]
  | 2000 => .obj [.plain (.int 2), .handle 2004 (some 1000)]
  | _ => .unset
def shTy : STy := .vec (.shared (.cls 0))

theorem shReach {a : Nat} (h : Reach shHeap shVal a) : a = 1000 ∨ a = 2000 := by
  induction h with
  | direct h => simp [shVal, targets, targets.all] at h; omega
  | step _ hb ih => rcases ih with rfl | rfl <;> simp [shHeap, targets, targets.all] at hb; omega

/-- The hypotheses of C35 hold of the sample. -/
example (mk : Bytes) : STyped shEnv mk (fun _ => .cls 0) cleanKey sixAtom shTy shVal ∧
    (∀ a, Reach shHeap shVal a → STyped shEnv mk (fun _ => .cls 0) cleanKey sixAtom (.cls 0) (shHeap a)) ∧
    NoCycles shHeap shVal ∧ Separate shHeap shVal := by
  refine ⟨?_, ?_, ⟨fun a => a, ?_⟩, ?_, ?_, ?_, ?_⟩
  · simp [shTy, shVal, STyped, STyped.all, snullable]
  · intro a ha
    rcases shReach ha with rfl | rfl
    all_goals simp [shHeap, STyped, STyped.members, shEnv, Samples.int32, Storable, docOf, AllKeys, AllScalars, InRange, snullable, sixAtom]
  · intro a b ha hb
    rcases shReach ha with rfl | rfl <;> simp [shHeap, targets, targets.all] at hb
    simp [hb]
  · decide
  · intro a ha
    rcases shReach ha with rfl | rfl <;> decide
  · intro a ha
    rcases shReach ha with rfl | rfl <;> decide
  · intro a b ha hb
    rcases shReach ha with rfl | rfl <;> rcases shReach hb with rfl | rfl <;> decide

/-- A handle without data is rejected unless its name was given to an object of exactly that type whose data was read
completely: dangling names, names of enclosing objects, names of objects of another type. (`C35_false` below shows the hypotheses
met.) -/
theorem C35_unknown_name {σ K X : Type} (o : POps σ) (sem : ScalarSem K X) (S : SEnv) (cfg : Cfg) (t : STy) (st : Loaded) (p : PI σ) (s : σ)
    (k : K) (x : X) (i : Int) (Q : σ → Prop) (hk : sem.key k = infoName) (hi : sem.readInt intmax x = .ok i) (hs : ∀ target, st.saved.lookup i ≠ some (t, target))
    (hg : Gets o p .MapStart s) (ha : After o sem (.obj [(k, .scalar x)]) Q s) :
    ∃ e, sdeser o S cfg (.shared t) st p = .throw e := by
  obtain ⟨-, s1, h1, ⟨s2, h2, s3, h3, h4⟩, -⟩ := ha
  have h5 := h4.2.1 intmax
  rw [hi] at h5
  obtain ⟨s4, h6, s5, h7, h8⟩ := h5
  rw [hk] at h2
  have e1 : (PI.init s1).lift (o.getKey (PI.init s1).inner) = .ok (infoName, PI.init s2) := by simp [PI.lift, PI.init, h2]
  have e2 : (PI.init s3).lift (o.getInt intmax (PI.init s3).inner) = .ok (i, PI.init s4) := by simp [PI.lift, PI.init, h6]
  have e3 := gets_next o h3
  have e4 := gets_next o h7
  have e5 := gets_next o h1
  simp only [Gets, Tr.tok] at e3 e4 e5
  rw [sdeser, hg]
  simp only [Res.ok_bind, reduceCtorEq, false_and, if_false]
  rw [gets_pushed o (by simp)]
  simp only [Res.ok_bind, ne_eq, not_true_eq_false, if_false]
  rw [sdeserInfo, e5]
  simp only [Res.ok_bind, reduceCtorEq, if_false, e1, if_true, e3, ne_eq, not_true_eq_false, e2]
  rw [sdeserInfo, e4]
  simp only [Res.ok_bind, if_true]
  by_cases hx : cfg.strict = .Exact
  · exact ⟨_, by rw [if_pos ⟨hx, by decide⟩]; rfl⟩
  · simp only [hx, false_and, if_false, getShared, Res.pure_eq, Res.ok_bind]
    cases h : st.saved.lookup i with
    | none => exact ⟨_, by simp; rfl⟩
    | some r =>
      obtain ⟨t', target⟩ := r
      have : t' ≠ t := fun e => hs target (e ▸ h)
      exact ⟨_, by simp [this]; rfl⟩

/-- C35 is false for cycles. An item whose `next` points to itself: the export succeeds, and its own text is rejected by
the import in every mode, because the object is registered only after its data was read. -/
theorem C35_false (cfg : Cfg) : ∃ (H : Nat → SVal) (t : STy) (v : SVal), STyped shEnv [] (fun _ => .cls 0) cleanKey sixAtom t v ∧
    (∀ a, Reach H v a → STyped shEnv [] (fun _ => .cls 0) cleanKey sixAtom (.cls 0) (H a)) ∧ Separate H v ∧
    ∃ text e, sjsonExport shEnv [] H ⟨.Stream, 0, 0, [], false⟩ t v = .ok text ∧
      simportValue JsonP.ops shEnv cfg t (PI.init (JsonP.ofBytes text true)) = .throw e := by
  let H : Nat → SVal := fun _ => .obj [.plain (.int 1), .handle 1004 (some 1000)]
  let v : SVal := .handle 11 (some 1000)
  have hr : ∀ a, Reach H v a → a = 1000 := by
    intro a h
    induction h with
    | direct h => simpa [v, targets] using h
    | step _ hb _ => simpa [H, targets, targets.all] using hb
  refine ⟨H, .shared (.cls 0), v, ?_, ?_, ⟨?_, ?_, ?_, ?_⟩, ?_⟩
  · simp [v, STyped, snullable]
  · intro a _
    simp [H, STyped, STyped.members, shEnv, Samples.int32, Storable, docOf, AllKeys, AllScalars, InRange, snullable, sixAtom]
  · decide
  · intro a _; simp [H, locs, locs.all]
  · intro a _; simp [H, v, locs, locs.all]
  · intro a b ha hb hne
    exact absurd ((hr a ha).trans (hr b hb).symm) hne
  · let d : Doc := .obj [(infoName, .scalar (.int intmax (1000 : Nat))), (infoData, .obj [(b!"id", .scalar (.int ⟨32, true⟩ 1)),
      (b!"next", .obj [(infoName, .scalar (.int intmax (1000 : Nat)))])])]
    have e : sser shEnv [] H (.shared (.cls 0)) v [] = .ok (cmdsOf d, [(1000, 11)]) := by
      rw [sser]
      simp only [addShared, List.lookup]
      rw [show H 1000 = .obj [.plain (.int 1), .handle 1004 (some 1000)] from rfl, sser]
      simp only [shEnv]
      rw [sserMembers, sser]
      simp only [Samples.int32, ser, Res.ok_bind, Res.pure_eq]
      rw [sserMembers, sser]
      rw [show addShared 1004 1000 [(1000, 11)] = (false, [(1000, 11)]) from rfl]
      simp only [Res.ok_bind]
      rw [sserMembers]
      rfl
    let pcfg : PrintCfg := ⟨.Stream, 0, 0, [], false⟩
    have hf : FitsIndent pcfg (nesting d) := .inl rfl
    have hk : AllKeys cleanKey d := ⟨by decide, trivial, by decide, ⟨by decide, trivial, by decide, ⟨by decide, trivial, trivial⟩, trivial⟩, trivial⟩
    obtain ⟨ws, w0, w, tv, e1, -, -, hw, hpt, hby⟩ := run_doc streamText pcfg d ⟨0, .Value, false⟩ [] (by simpa using fits_width hf)
    have hjt := ptext_jtext (ft := streamText) codePair d tv hk (by simp [d, AllScalars, AllScalars.members, AtomOk]) hpt
    obtain ⟨s1, g1, s2, g2, g3⟩ := doc_presents (conv := true) (post := []) hw hjt trivial
    rw [jtree_enc] at g2 g3
    have F := jsonFaithful
    obtain ⟨s3, e3, s4, k1, ⟨s5, k2, s6, k3, k4⟩, -⟩ := info_name (S := shEnv) (cfg := cfg) (o := JsonP.ops) (a := 1000) F trivial (fun _ _ => trivial) (by decide) (.cls 0) ⟨[], []⟩ _ g3.2
    obtain ⟨kn, s7, l1, ⟨s8, l2, s9, l3, l4⟩, -⟩ := k4
    have i1 := deser_refines JsonP.ops (jsem true) rtEnv cfg (.scalar (jscalar streamText (.int ⟨32, true⟩ 1))) _ s9 Samples.int32 (.int 0) (PI.init s8) (gets_next _ l3) l4
    have i2 : imp (jsem true) rtEnv cfg (.scalar (jscalar streamText (.int ⟨32, true⟩ 1))) Samples.int32 (.int 0) = .ok (.int 1) := by
      have := F.int ⟨32, true⟩ 1 trivial (by decide)
      simp only [Samples.int32, imp, impScalar, this]
      rfl
    rw [i2] at i1
    obtain ⟨s10, i1, s11, m1, ⟨s12, m2, s13, m3, m4⟩, -⟩ := i1
    obtain ⟨ex, he⟩ := C35_unknown_name JsonP.ops (jsem true) shEnv cfg (.cls 0) ⟨[], []⟩ (PI.init s12) s13 _ _ 1000 _ (F.key infoName trivial)
      (F.int intmax (1000 : Nat) trivial (by decide)) (by simp) (gets_next _ m3) m4
    refine ⟨w ++ tv, ex, ?_, ?_⟩
    · simp only [sjsonExport, e, Res.ok_bind]
      rw [show JPrint.init = [⟨0, .Value, false⟩] from rfl, e1]
      simp [hby, sepOf]
    · have j0 : (PI.init (JsonP.ofBytes (w ++ tv) true)).getToken JsonP.ops = .ok (.DocStart, PI.init s1) := gets_next JsonP.ops (by rw [List.append_nil] at g1; exact g1)
      have j1 : (PI.init s1).getToken JsonP.ops = .ok (.MapStart, PI.init s2) := gets_next JsonP.ops g2
      have j2 : ((PI.init s2).pushBackToken .MapStart).getToken JsonP.ops = .ok (.MapStart, PI.init s2) := gets_pushed _ (by simp)
      have j3 : (PI.init s3).getToken JsonP.ops = .ok (.Key, PI.init s4) := gets_next JsonP.ops k1
      have j4 : (PI.init s4).lift (JsonP.ops.getKey (PI.init s4).inner) = .ok (infoData, PI.init s5) := by
        rw [F.key infoData trivial] at k2
        simp [PI.lift, PI.init, k2]
      have j5 : (PI.init s5).getToken JsonP.ops = .ok (.MapStart, PI.init s6) := gets_next JsonP.ops k3
      have j6 : JsonP.ops.isNull (PI.init s6).inner = false := kn
      have j7 : ((PI.init s6).pushBackToken .MapStart).getToken JsonP.ops = .ok (.MapStart, PI.init s6) := gets_pushed _ (by simp)
      have j8 : (PI.init s6).getToken JsonP.ops = .ok (.Key, PI.init s7) := gets_next JsonP.ops l1
      have j9 : (PI.init s7).lift (JsonP.ops.getKey (PI.init s7).inner) = .ok (b!"id", PI.init s8) := by
        rw [F.key (b!"id") trivial] at l2
        simp [PI.lift, PI.init, l2]
      have j10 : (PI.init s10).getToken JsonP.ops = .ok (.Key, PI.init s11) := gets_next JsonP.ops m1
      have j11 : (PI.init s11).lift (JsonP.ops.getKey (PI.init s11).inner) = .ok (b!"next", PI.init s12) := by
        rw [F.key (b!"next") trivial] at m2
        simp [PI.lift, PI.init, m2]
      have hx : sdeser JsonP.ops shEnv cfg (.cls 0) ⟨[], []⟩ ((PI.init s6).pushBackToken .MapStart) = .throw ex := by
        rw [sdeser, j7]
        simp only [Res.ok_bind, ne_eq, not_true_eq_false, if_false]
        rw [sdeserMembers, j8]
        simp only [Res.ok_bind, reduceCtorEq, if_false, j9]
        rw [show smemberAt (b!"id") (shEnv.classes 0) 0 = some (0, .plain Samples.int32) from rfl]
        simp only
        rw [sdeser, show Samples.int32.default shEnv.env = .int 0 from rfl, show shEnv.env = rtEnv from rfl, i1]
        simp only [Res.ok_bind, Res.pure_eq]
        rw [sdeserMembers, j10]
        simp only [Res.ok_bind, reduceCtorEq, if_false, j11]
        rw [show smemberAt (b!"next") (shEnv.classes 0) 0 = some (1, .shared (.cls 0)) from rfl]
        simp only [he]
        rfl
      rw [simportValue]
      simp only [j0, Res.ok_bind, ne_eq, not_true_eq_false, if_false]
      rw [sdeser, j1]
      simp only [Res.ok_bind, reduceCtorEq, false_and, if_false, j2, ne_eq, not_true_eq_false]
      rw [e3, sdeserInfo, j3]
      simp only [Res.ok_bind, reduceCtorEq, if_false, j4, show infoData ≠ infoName by decide, if_true, j5, j6, Bool.false_eq_true, release, hx]
      rfl

/-- C35 does not hold in Exact mode: every handle but the first to an object is written without data (`SDoc.again`), and the
import in Exact mode rejects every such handle, as an object without one of the members of `SharedInfo`. (`C35_false` shows the
hypotheses met.) -/
theorem C35_exact_rejects {σ K X : Type} (o : POps σ) (sem : ScalarSem K X) (S : SEnv) (cfg : Cfg) (hx : cfg.strict = .Exact) (t : STy) (st : Loaded)
    (p : PI σ) (s : σ) (k : K) (x : X) (i : Int) (Q : σ → Prop) (hk : sem.key k = infoName) (hi : sem.readInt intmax x = .ok i)
    (hg : Gets o p .MapStart s) (ha : After o sem (.obj [(k, .scalar x)]) Q s) :
    ∃ e, sdeser o S cfg (.shared t) st p = .throw e := by
  obtain ⟨-, s1, h1, ⟨s2, h2, s3, h3, h4⟩, -⟩ := ha
  have h5 := h4.2.1 intmax
  rw [hi] at h5
  obtain ⟨s4, h6, s5, h7, h8⟩ := h5
  rw [hk] at h2
  have e1 : (PI.init s1).lift (o.getKey (PI.init s1).inner) = .ok (infoName, PI.init s2) := by simp [PI.lift, PI.init, h2]
  have e2 : (PI.init s3).lift (o.getInt intmax (PI.init s3).inner) = .ok (i, PI.init s4) := by simp [PI.lift, PI.init, h6]
  have e3 := gets_next o h3
  have e4 := gets_next o h7
  have e5 := gets_next o h1
  simp only [Gets, Tr.tok] at e3 e4 e5
  rw [sdeser, hg]
  simp only [Res.ok_bind, reduceCtorEq, false_and, if_false]
  rw [gets_pushed o (by simp)]
  simp only [Res.ok_bind, ne_eq, not_true_eq_false, if_false]
  rw [sdeserInfo, e5]
  simp only [Res.ok_bind, reduceCtorEq, if_false, e1, if_true, e3, ne_eq, not_true_eq_false, e2]
  rw [sdeserInfo, e4]
  simp only [Res.ok_bind, if_true]
  exact ⟨_, by rw [if_pos ⟨hx, by decide⟩]; rfl⟩

end Thors.Props
