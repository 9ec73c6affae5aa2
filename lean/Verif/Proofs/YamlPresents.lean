import Verif.Spec.Yaml
import Verif.Proofs.Presents
/-
The YAML parser presents the tree whose events it is given.
-/
namespace Thors
open Spec StrIn

/-- The state inside a document, in front of the given events. -/
def yAt (es : List YEv) (k : YState) (n : Nat) (st : List (YState × Nat)) (s : YamlP) : Prop :=
  s.events = es ∧ s.state = (k, n) :: st ∧ s.first = false ∧ s.error = false

/-- A value can come next. -/
def yVal (k : YState) (n : Nat) : Prop := ¬ (k = .Map ∧ (n + 1) % 2 = 1)

theorem y_next {e : YEv} {es : List YEv} {k : YState} {n : Nat} {st : List (YState × Nat)} {s : YamlP} (h : yAt (e :: es) k n st s) :
    YamlP.ops.next s = YamlP.parseEvent ⟨e :: es, (k, n) :: st, false, false, s.cur⟩ := by
  obtain ⟨s1, s2, s3, s4, s5⟩ := s
  obtain ⟨h1, h2, h3, h4⟩ := h
  simp only at h1 h2 h3 h4
  subst h1 h2 h3 h4
  simp [YamlP.ops, YamlP.getNextToken]

theorem yaml_presents (v : YTree) : ∀ (k : YState) (n : Nat) (st : List (YState × Nat)) (es : List YEv) (s : YamlP), yVal k n →
    yAt (yevents v ++ es) k n st s → Presents YamlP.ops ysem v (yAt es k (n + 1) st) s := by
  induction v using Spec.Tr.induct with
  | hs x =>
    intro k n st es s hv hs
    refine ⟨⟨es, (k, n + 1) :: st, false, false, .scalar x⟩, ?_, ?_⟩
    · rw [y_next hs]
      simp only [YamlP.parseEvent, Tr.tok]
      rw [if_neg hv]
      rfl
    · have hq : yAt es k (n + 1) st ⟨es, (k, n + 1) :: st, false, false, .scalar x⟩ := ⟨rfl, rfl, rfl, rfl⟩
      refine ⟨rfl, ?_, ?_, ?_, ?_, ?_, ?_⟩
      · intro kd
        simp only [ysem, YamlP.ops, YamlP.getInt, YamlP.scalarText, Res.ok_bind]
        cases YamlP.scanText kd x with
        | ok i => exact ⟨_, rfl, hq⟩
        | throw e => rfl
        | ub => rfl
      · simp only [ysem, YamlP.ops, YamlP.getBool, YamlP.getString, Res.ok_bind]
        split
        · exact ⟨_, rfl, hq⟩
        · split
          · exact ⟨_, rfl, hq⟩
          · rfl
      · exact ⟨_, rfl, hq⟩
      · intro _; exact ⟨_, rfl, hq⟩
      · intro b hb
        simp only [ysem, Option.some.injEq] at hb
        subst hb
        exact ⟨_, rfl, hq⟩
      · intro f
        simp only [ysem, YamlP.ops, YamlP.getFlt, YamlP.scalarText, Res.ok_bind]
        cases YamlP.scanTextFlt f x with
        | ok i => exact ⟨_, rfl, hq⟩
        | throw e => rfl
        | ub => rfl
  | ha vs ih =>
    intro k n st es s hv hs
    refine ⟨⟨yevents.elems vs ++ .seqEnd :: es, (.Array, 0) :: (k, n + 1) :: st, false, false, .seqStart⟩, ?_, rfl, ?_⟩
    · rw [show yevents (.arr vs) ++ es = .seqStart :: (yevents.elems vs ++ .seqEnd :: es) by simp [yevents]] at hs
      rw [y_next hs]
      simp only [YamlP.parseEvent, Tr.tok]
      rw [if_neg hv]
    · have key : ∀ (vs : List YTree), (∀ v ∈ vs, ∀ (k : YState) (n : Nat) (st : List (YState × Nat)) (es : List YEv) (s : YamlP), yVal k n →
          yAt (yevents v ++ es) k n st s → Presents YamlP.ops ysem v (yAt es k (n + 1) st) s) →
          ∀ (m : Nat) (s : YamlP), yAt (yevents.elems vs ++ .seqEnd :: es) .Array m ((k, n + 1) :: st) s →
            After.elems YamlP.ops ysem vs (yAt es k (n + 1) st) s := by
        intro vs
        induction vs with
        | nil =>
          intro _ m s hs
          refine ⟨_, (y_next hs).trans rfl, rfl, rfl, rfl, rfl⟩
        | cons v vs ih2 =>
          intro ih m s hs
          simp only [yevents.elems, List.append_assoc] at hs
          obtain ⟨s1, e1, h1⟩ := ih v (by simp) .Array m _ _ s (by simp [yVal]) hs
          exact ⟨s1, e1, after_mono _ _ v (fun s h => ih2 (fun v hv => ih v (by simp [hv])) (m + 1) s h) h1⟩
      exact key vs ih 0 _ ⟨rfl, rfl, rfl, rfl⟩
  | ho ms ih =>
    intro k n st es s hv hs
    refine ⟨⟨yevents.members ms ++ .mapEnd :: es, (.Map, 0) :: (k, n + 1) :: st, false, false, .mapStart⟩, ?_, rfl, ?_⟩
    · rw [show yevents (.obj ms) ++ es = .mapStart :: (yevents.members ms ++ .mapEnd :: es) by simp [yevents]] at hs
      rw [y_next hs]
      simp only [YamlP.parseEvent, Tr.tok]
      rw [if_neg hv]
    · have key : ∀ (ms : List (Bytes × YTree)), (∀ m ∈ ms, ∀ (k : YState) (n : Nat) (st : List (YState × Nat)) (es : List YEv) (s : YamlP), yVal k n →
          yAt (yevents m.2 ++ es) k n st s → Presents YamlP.ops ysem m.2 (yAt es k (n + 1) st) s) →
          ∀ (m : Nat) (s : YamlP), m % 2 = 0 → yAt (yevents.members ms ++ .mapEnd :: es) .Map m ((k, n + 1) :: st) s →
            After.members YamlP.ops ysem ms (yAt es k (n + 1) st) s := by
        intro ms
        induction ms with
        | nil =>
          intro _ m s hm hs
          refine ⟨⟨es, (k, n + 1) :: st, false, false, .mapEnd⟩, (y_next hs).trans ?_, ⟨rfl, rfl, rfl, rfl⟩⟩
          simp [YamlP.parseEvent, hm]
        | cons m ms ih2 =>
          obtain ⟨kk, v⟩ := m
          intro ih m s hm hs
          simp only [yevents.members, List.cons_append, List.append_assoc] at hs
          have hk : YamlP.ops.next s = .ok (.Key, ⟨yevents v ++ (yevents.members ms ++ .mapEnd :: es), (.Map, m + 1) :: (k, n + 1) :: st, false, false, .scalar kk⟩) := by
            rw [y_next hs]
            simp only [YamlP.parseEvent]
            rw [if_pos ⟨trivial, by omega⟩]
          have hp := ih (kk, v) (by simp) .Map (m + 1) ((k, n + 1) :: st) _
            ⟨yevents v ++ (yevents.members ms ++ .mapEnd :: es), (.Map, m + 1) :: (k, n + 1) :: st, false, false, .scalar kk⟩
            (by simp only [yVal]; omega) (by exact ⟨rfl, rfl, rfl, rfl⟩)
          obtain ⟨s1, e1, h1⟩ := hp
          have h2 := after_mono YamlP.ops ysem v (fun s h => ih2 (fun v hv => ih v (by simp [hv])) (m + 2) s (by omega) h) h1
          exact ⟨_, hk, ⟨_, rfl, s1, e1, h2⟩, fun _ => ⟨_, rfl, s1, e1, h2⟩⟩
      exact key ms ih 0 _ rfl ⟨rfl, rfl, rfl, rfl⟩

/-- A document, followed by anything (the end of the stream, more documents, an error). -/
theorem ydoc_presents (v : YTree) (es : List YEv) :
    ∃ s1, YamlP.ops.next (YamlP.ofEvents ([.streamStart, .docStart] ++ yevents v ++ .docEnd :: es)) = .ok (.DocStart, s1) ∧
      Presents YamlP.ops ysem v (fun s => ∃ s', YamlP.ops.next s = .ok (.DocEnd, s') ∧ s'.events = es) s1 := by
  refine ⟨⟨yevents v ++ .docEnd :: es, [(.Open, 1)], false, false, .docStart⟩, rfl, ?_⟩
  obtain ⟨s1, e1, h1⟩ := yaml_presents v .Open 1 [] (.docEnd :: es)
    ⟨yevents v ++ .docEnd :: es, [(.Open, 1)], false, false, .docStart⟩ (by simp [yVal]) ⟨rfl, rfl, rfl, rfl⟩
  refine ⟨s1, e1, after_mono _ _ v (fun s h => ?_) h1⟩
  exact ⟨_, (y_next h).trans rfl, rfl⟩

theorem yaml_import_match (env : Env) (cfg : Cfg) (v : YTree) (es : List YEv) (ty : Ty) (old : Val) :
    Match (Sk cfg (v.skippable ysem)) (fun s => s.events = es)
      (importValue YamlP.ops env cfg ty old (PI.init (YamlP.ofEvents ([.streamStart, .docStart] ++ yevents v ++ .docEnd :: es))))
      (imp ysem env cfg v ty old) := by
  obtain ⟨s1, h1, h2⟩ := ydoc_presents v es
  exact import_refines YamlP.ops ysem env cfg h1 h2 ty old

mutual
theorem yskip : ∀ v : YTree, v.skippable ysem = true
  | .scalar _ => rfl
  | .arr vs => by simp only [Tr.skippable]; exact yskip_elems vs
  | .obj ms => by simp only [Tr.skippable]; exact yskip_members ms
theorem yskip_elems : ∀ vs : List YTree, Tr.skippable.all ysem vs = true
  | [] => rfl
  | v :: vs => by simp only [Tr.skippable.all, yskip v, yskip_elems vs, Bool.and_self]
theorem yskip_members : ∀ ms : List (Bytes × YTree), Tr.skippable.allM ysem ms = true
  | [] => rfl
  | (k, v) :: ms => by simp only [Tr.skippable.allM, yskip v, yskip_members ms, Bool.and_self]; rfl
end

/-- The import of YAML events into a C++ object of type `ty` with old value `old`: the new value. -/
noncomputable def yamlImport (env : Env) (cfg : Cfg) (ty : Ty) (old : Val) (es : List YEv) : Res Val := do
  let (v, _) ← importValue YamlP.ops env cfg ty old (PI.init (YamlP.ofEvents es))
  return v

theorem yamlImport_doc (env : Env) (cfg : Cfg) (v : YTree) (es : List YEv) (ty : Ty) (old : Val) :
    yamlImport env cfg ty old ([.streamStart, .docStart] ++ yevents v ++ .docEnd :: es) = imp ysem env cfg v ty old := by
  have := yaml_import_match env cfg v es ty old
  unfold yamlImport
  cases he : imp ysem env cfg v ty old with
  | ok a => rw [he] at this; obtain ⟨s, e, -⟩ := this; rw [e]; rfl
  | throw e => rw [he] at this; rw [show importValue _ _ _ _ _ _ = _ from this]; rfl
  | ub => rw [he] at this; rw [this (fun _ => yskip v)]; rfl

end Thors
