import Verif.Proofs.JsonPresents
import Verif.Spec.JsonEvents
/-
Whole JSON documents: events, import.
-/
namespace Thors
open Spec StrIn

theorem sees_append {s s1 s2 : JsonP} {a b : List JEv} (ha : Sees s a s1) (hb : Sees s1 b s2) : Sees s (a ++ b) s2 := by
  induction ha with
  | nil => exact hb
  | cons hn ht h ih => exact .cons hn ht (ih hb)

/-- A state that presents a tree shows its events. -/
theorem presents_sees {conv : Bool} (v : JTree) : ∀ {Q : JsonP → Prop} {s : JsonP}, Presents JsonP.ops (jsem conv) v Q s →
    ∃ s', Sees s (jevents conv v) s' ∧ Q s' := by
  induction v using Spec.Tr.induct with
  | hs x =>
    intro Q s ⟨s1, h1, h2⟩
    obtain ⟨e1, e2, e3, e4, e5, e6, -⟩ := h2
    cases x with
    | null =>
      obtain ⟨s2, e, hq⟩ := e5 (.inl rfl)
      exact ⟨s2, .cons h1 (.null (by exact e1) e) .nil, hq⟩
    | bool b =>
      obtain ⟨s2, e, hq⟩ := e3
      exact ⟨s2, .cons h1 (.bool (by exact e1) e) .nil, hq⟩
    | int t i =>
      obtain ⟨s2, e, hq⟩ := e6 _ rfl
      exact ⟨s2, .cons h1 (.num (by exact e1) e) .nil, hq⟩
    | frac t =>
      obtain ⟨s2, e, hq⟩ := e6 _ rfl
      exact ⟨s2, .cons h1 (.num (by exact e1) e) .nil, hq⟩
    | str b =>
      obtain ⟨s2, e, hq⟩ := e4
      exact ⟨s2, .cons h1 (.str (by exact e1) e) .nil, hq⟩
  | ha vs ih =>
    intro Q s ⟨s1, h1, h2⟩
    have key : ∀ (vs : List JTree), (∀ v ∈ vs, ∀ {Q : JsonP → Prop} {s : JsonP}, Presents JsonP.ops (jsem conv) v Q s →
        ∃ s', Sees s (jevents conv v) s' ∧ Q s') → ∀ s, After.elems JsonP.ops (jsem conv) vs Q s →
        ∃ s', Sees s (jevents.elems conv vs ++ [.arrayEnd]) s' ∧ Q s' := by
      intro vs
      induction vs with
      | nil =>
        intro _ s ⟨s1, e1, hq⟩
        exact ⟨s1, .cons e1 .arrayEnd .nil, hq⟩
      | cons v vs ih2 =>
        intro ih s ⟨s1, e1, h⟩
        obtain ⟨s2, e2, h2⟩ := ih v (by simp) ⟨s1, e1, h⟩
        obtain ⟨s3, e3, h3⟩ := ih2 (fun v hv => ih v (by simp [hv])) s2 h2
        exact ⟨s3, by simp only [jevents.elems, List.append_assoc]; exact sees_append e2 e3, h3⟩
    obtain ⟨s', e2, hq⟩ := key vs ih s1 h2.2
    exact ⟨s', .cons h1 .arrayStart e2, hq⟩
  | ho ms ih =>
    intro Q s ⟨s1, h1, h2⟩
    have key : ∀ (ms : List (JStr × JTree)), (∀ m ∈ ms, ∀ {Q : JsonP → Prop} {s : JsonP}, Presents JsonP.ops (jsem conv) m.2 Q s →
        ∃ s', Sees s (jevents conv m.2) s' ∧ Q s') → ∀ s, After.members JsonP.ops (jsem conv) ms Q s →
        ∃ s', Sees s (jevents.members conv ms ++ [.mapEnd]) s' ∧ Q s' := by
      intro ms
      induction ms with
      | nil =>
        intro _ s ⟨s1, e1, hq⟩
        exact ⟨s1, .cons e1 .mapEnd .nil, hq⟩
      | cons m ms ih2 =>
        obtain ⟨k, v⟩ := m
        intro ih s ⟨s1, e1, ⟨s2, e2, s3, e3, h⟩, _⟩
        obtain ⟨s4, e4, h4⟩ := ih (k, v) (by simp) ⟨s3, e3, h⟩
        obtain ⟨s5, e5, h5⟩ := ih2 (fun v hv => ih v (by simp [hv])) s4 h4
        refine ⟨s5, ?_, h5⟩
        simp only [jevents.members, List.append_assoc, List.cons_append]
        exact .cons e1 (.key e2) (sees_append e4 e5)
    obtain ⟨s', e2, hq⟩ := key ms ih s1 h2.2
    exact ⟨s', .cons h1 .mapStart e2, hq⟩

/-- The control state at the end of a document, before and after document end was announced. -/
def ctlDone : JCtl := ⟨.Done, .Done, [], true⟩
def ctlEnd : JCtl := ⟨.Done, .Error, [], true⟩

/-- A document followed by anything that does not continue its last number, in a fresh parser. -/
theorem doc_presents {conv : Bool} {v : JTree} {w tv post : Bytes} (hw : Ws w) (hv : JText codePair v tv) (hp : Ends v post) :
    ∃ s1, (JsonP.ofBytes (w ++ tv ++ post) conv).getNextToken = .ok (.DocStart, s1) ∧
      Presents JsonP.ops (jsem conv) v (fun s => ∃ s', s.getNextToken = .ok (.DocEnd, s') ∧ At conv ctlEnd post s') s1 := by
  refine ⟨_, rfl, ?_⟩
  have h := presents_text conv v tv hv ⟨.Done, .Init, [], true⟩ w post
    ⟨(JsonP.ofBytes (w ++ tv ++ post) conv).lex, ⟨.Done, .Init, [], true⟩⟩ (.init hw) hp
    ⟨rfl, ⟨by simp [JsonP.ofBytes, StrIn.ofBytes, StrIn.rest], rfl, by simp [JsonP.ofBytes, StrIn.ofBytes]⟩, rfl⟩
  obtain ⟨s1, e1, h1⟩ := h
  refine ⟨s1, e1, after_mono _ _ v ?_ h1⟩
  rintro ⟨l, c⟩ ⟨hc, hi, hcv⟩
  simp only at hc
  subst hc
  exact ⟨_, rfl, rfl, hi, hcv⟩

/-- The import of a JSON text into a C++ object of type `ty` with old value `old`: the new value. -/
noncomputable def jsonImport (env : Env) (cfg : Cfg) (conv : Bool) (ty : Ty) (old : Val) (t : Bytes) : Res Val := do
  let (v, _) ← importValue JsonP.ops env cfg ty old (PI.init (JsonP.ofBytes t conv))
  return v

theorem json_import_match (env : Env) (cfg : Cfg) {conv : Bool} {v : JTree} {w tv post : Bytes} (hw : Ws w) (hv : JText codePair v tv)
    (hp : Ends v post) (ty : Ty) (old : Val) :
    Match (Sk cfg (v.skippable (jsem conv))) (At conv ctlEnd post) (importValue JsonP.ops env cfg ty old (PI.init (JsonP.ofBytes (w ++ tv ++ post) conv)))
      (imp (jsem conv) env cfg v ty old) := by
  obtain ⟨s1, h1, h2⟩ := doc_presents (conv := conv) hw hv hp
  exact import_refines JsonP.ops (jsem conv) env cfg (s := JsonP.ofBytes (w ++ tv ++ post) conv) h1 h2 ty old

theorem jsonImport_post (env : Env) (cfg : Cfg) {conv : Bool} {v : JTree} {w tv post : Bytes} (hw : Ws w) (hv : JText codePair v tv)
    (hp : Ends v post) (ty : Ty) (old : Val) (h : (cfg.strict = .Weak → v.skippable (jsem conv) = true) ∨ imp (jsem conv) env cfg v ty old ≠ .ub) :
    jsonImport env cfg conv ty old (w ++ tv ++ post) = imp (jsem conv) env cfg v ty old := by
  have := json_import_match env cfg (conv := conv) hw hv hp ty old
  unfold jsonImport
  cases he : imp (jsem conv) env cfg v ty old with
  | ok a => rw [he] at this; obtain ⟨s, e, -⟩ := this; rw [e]; rfl
  | throw e => rw [he] at this; rw [show importValue _ _ _ _ _ _ = _ from this]; rfl
  | ub => rw [he] at this h; rw [this (h.resolve_right (by simp))]; rfl

theorem valueEnds_ws {w : Bytes} (h : Ws w) : valueEnds w := by
  have := ws_ends h (t := []) trivial
  simpa using this

/-- Importing a JSON document does what the specification says of its tree. -/
theorem jsonImport_doc (env : Env) (cfg : Cfg) {conv : Bool} {v : JTree} {t : Bytes} (hd : JDoc codePair v t) (ty : Ty) (old : Val)
    (h : (cfg.strict = .Weak → v.skippable (jsem conv) = true) ∨ imp (jsem conv) env cfg v ty old ≠ .ub) :
    jsonImport env cfg conv ty old t = imp (jsem conv) env cfg v ty old := by
  obtain ⟨w1, tv, w2, hw1, hw2, hv, rfl⟩ := hd
  exact jsonImport_post env cfg hw1 hv (.of (valueEnds_ws hw2)) ty old h

/-! ### The meaning of surrogate pairs does not matter for the structure -/

theorem body_change {pr pr' : Nat → Nat → Bytes} {t o : Bytes} (h : Body pr t o) : ∃ o', Body pr' t o' := by
  induction h with
  | nil => exact ⟨_, .nil⟩
  | basic h _ ih => obtain ⟨o', h'⟩ := ih; exact ⟨_, .basic h h'⟩
  | pair h _ ih => obtain ⟨o', h'⟩ := ih; exact ⟨_, .pair h h'⟩

theorem text_change {pr pr' : Nat → Nat → Bytes} (conv : Bool) (v : JTree) : ∀ t, JText pr v t →
    ∃ v', JText pr' v' t ∧ (jevents conv v').map JEv.tok = (jevents conv v).map JEv.tok := by
  induction v using Spec.Tr.induct with
  | hs x =>
    intro t h
    cases x with
    | str b =>
      obtain ⟨h1, h2⟩ := h
      obtain ⟨d, h3⟩ := body_change (pr' := pr') h1
      exact ⟨.scalar (.str ⟨b.raw, d⟩), ⟨h3, h2⟩, rfl⟩
    | null => exact ⟨.scalar .null, h, rfl⟩
    | bool b => exact ⟨.scalar (.bool b), h, rfl⟩
    | int t i => exact ⟨.scalar (.int t i), h, rfl⟩
    | frac t x => exact ⟨.scalar (.frac t x), h, rfl⟩
  | ha vs ih =>
    intro t h
    have key : ∀ (vs : List JTree), (∀ v ∈ vs, ∀ t, JText pr v t → ∃ v', JText pr' v' t ∧ (jevents conv v').map JEv.tok = (jevents conv v).map JEv.tok) →
        ∀ ps, JText.elems pr vs ps → ∃ vs', JText.elems pr' vs' ps ∧ (jevents.elems conv vs').map JEv.tok = (jevents.elems conv vs).map JEv.tok ∧
          vs'.length = vs.length := by
      intro vs
      induction vs with
      | nil => intro _ ps h; exact ⟨[], h, rfl, rfl⟩
      | cons v vs ih2 =>
        intro ih ps ⟨w1, tv, w2, ps', hw1, hw2, htv, hps, e⟩
        obtain ⟨v', h1, e1⟩ := ih v (by simp) tv htv
        obtain ⟨vs', h2, e2, e3⟩ := ih2 (fun v hv => ih v (by simp [hv])) ps' hps
        exact ⟨v' :: vs', ⟨w1, tv, w2, ps', hw1, hw2, h1, h2, e⟩, by simp [jevents.elems, e1, e2], by simp [e3]⟩
    cases vs with
    | nil => exact ⟨.arr [], h, rfl⟩
    | cons v vs =>
      obtain ⟨ps, hps, e⟩ := h
      obtain ⟨vs', h1, e1, e2⟩ := key _ ih ps hps
      cases vs' with
      | nil => simp at e2
      | cons v' vs' => exact ⟨.arr (v' :: vs'), ⟨ps, h1, e⟩, by simp [jevents, e1]⟩
  | ho ms ih =>
    intro t h
    have key : ∀ (ms : List (JStr × JTree)), (∀ m ∈ ms, ∀ t, JText pr m.2 t → ∃ v', JText pr' v' t ∧ (jevents conv v').map JEv.tok = (jevents conv m.2).map JEv.tok) →
        ∀ ps, JText.members pr ms ps → ∃ ms', JText.members pr' ms' ps ∧ (jevents.members conv ms').map JEv.tok = (jevents.members conv ms).map JEv.tok ∧
          ms'.length = ms.length := by
      intro ms
      induction ms with
      | nil => intro _ ps h; exact ⟨[], h, rfl, rfl⟩
      | cons m ms ih2 =>
        obtain ⟨k, v⟩ := m
        intro ih ps ⟨w1, w2, w3, tv, w4, ps', hw1, hw2, hw3, hw4, hk, htv, hps, e⟩
        obtain ⟨v', h1, e1⟩ := ih (k, v) (by simp) tv htv
        obtain ⟨ms', h2, e2, e3⟩ := ih2 (fun v hv => ih v (by simp [hv])) ps' hps
        obtain ⟨d, hd⟩ := body_change (pr' := pr') hk
        exact ⟨(⟨k.raw, d⟩, v') :: ms', ⟨w1, w2, w3, tv, w4, ps', hw1, hw2, hw3, hw4, hd, h1, h2, e⟩, by simp [jevents.members, e1, e2, JEv.tok], by simp [e3]⟩
    cases ms with
    | nil => exact ⟨.obj [], h, rfl⟩
    | cons v vs =>
      obtain ⟨ps, hps, e⟩ := h
      obtain ⟨vs', h1, e1, e2⟩ := key _ ih ps hps
      cases vs' with
      | nil => simp at e2
      | cons v' vs' => exact ⟨.obj (v' :: vs'), ⟨ps, h1, e⟩, by simp [jevents, e1]⟩

end Thors
