import Verif.Model.AnyBlock
import Verif.Spec.Compact
import Verif.Proofs.JsonImport
/-
What an `AnyBlock` captures.
-/
namespace Thors
open Spec StrIn

/-- Text after `first` or a later element. -/
def tailText (first : Bool) (ps : List Bytes) : Bytes := if first then commas ps else if ps = [] then [] else [0x2C] ++ commas ps

theorem tailText_cons (first : Bool) (a p : Bytes) (ps : List Bytes) :
    (if first then a else a ++ [0x2C]) ++ p ++ tailText false ps = a ++ tailText first (p :: ps) := by
  cases first <;> cases ps <;> simp [tailText, commas]

theorem any_after (conv : Bool) (v : JTree) : ∀ {Q : JsonP → Prop} {s : JsonP} (a : Bytes), allStrings JStr.copies v = true →
    After JsonP.ops (jsem conv) v Q s →
    ∃ s', anyToken JsonP.ops v.tok a (PI.init s) = .ok (a ++ compactWith (JStr.val conv) v, PI.init s') ∧ Q s' := by
  induction v using Spec.Tr.induct with
  | hs x =>
    intro Q s a hc h
    have hr : (jsem conv).raw x = some x.written := by
      cases x with
      | str b => simp only [allStrings] at hc; simp [jsem, JScalar.written, hc]
      | _ => rfl
    obtain ⟨s', e, hq⟩ := h.2.2.2.2.2.1 _ hr
    refine ⟨s', ?_, hq⟩
    show anyToken JsonP.ops .Value a (PI.init s) = _
    rw [anyToken]
    simp [PI.init, e, compactWith]
  | ha vs ih =>
    intro Q s a hc h
    replace h := h.2
    have key : ∀ (vs : List JTree), (∀ v ∈ vs, ∀ {Q : JsonP → Prop} {s : JsonP} (a : Bytes), allStrings JStr.copies v = true →
        After JsonP.ops (jsem conv) v Q s →
        ∃ s', anyToken JsonP.ops v.tok a (PI.init s) = .ok (a ++ compactWith (JStr.val conv) v, PI.init s') ∧ Q s') →
        ∀ (s : JsonP) (first : Bool) (a : Bytes), allStrings.elems JStr.copies vs = true → After.elems JsonP.ops (jsem conv) vs Q s →
        ∃ s', anyArray JsonP.ops first a (PI.init s) =
          .ok (a ++ tailText first (compactWith.elems (JStr.val conv) vs) ++ [0x5D], PI.init s') ∧ Q s' := by
      intro vs
      induction vs with
      | nil =>
        intro _ s first a _ ⟨s1, e1, hq⟩
        refine ⟨s1, ?_, hq⟩
        rw [anyArray, gets_next JsonP.ops e1]
        cases first <;> simp [tailText, compactWith.elems, commas]
      | cons v vs ih2 =>
        intro ih s first a hc ⟨s1, e1, h⟩
        simp only [allStrings.elems, Bool.and_eq_true] at hc
        obtain ⟨s2, e2, h2⟩ := ih v (by simp) (if first then a else a ++ [0x2C]) hc.1 h
        obtain ⟨s3, e3, h3⟩ := ih2 (fun v hv => ih v (by simp [hv])) s2 false ((if first then a else a ++ [0x2C]) ++ compactWith (JStr.val conv) v) hc.2 h2
        refine ⟨s3, ?_, h3⟩
        rw [anyArray, gets_next JsonP.ops e1]
        have hne : v.tok ≠ .ArrayEnd := by cases v <;> simp [Tr.tok]
        simp only [Res.ok_bind]
        rw [if_neg hne, e2]
        simp only [Res.ok_bind]
        rw [e3, tailText_cons]
        rfl
    obtain ⟨s', e, hq⟩ := key vs ih s true (a ++ [0x5B]) (by simpa [allStrings] using hc) h
    refine ⟨s', ?_, hq⟩
    show anyToken JsonP.ops .ArrayStart a (PI.init s) = _
    rw [anyToken, e]
    simp [tailText, compactWith]
  | ho ms ih =>
    intro Q s a hc h
    replace h := h.2
    have key : ∀ (ms : List (JStr × JTree)), (∀ m ∈ ms, ∀ {Q : JsonP → Prop} {s : JsonP} (a : Bytes), allStrings JStr.copies m.2 = true →
        After JsonP.ops (jsem conv) m.2 Q s →
        ∃ s', anyToken JsonP.ops m.2.tok a (PI.init s) = .ok (a ++ compactWith (JStr.val conv) m.2, PI.init s') ∧ Q s') →
        ∀ (s : JsonP) (first : Bool) (a : Bytes), allStrings.members JStr.copies ms = true → After.members JsonP.ops (jsem conv) ms Q s →
        ∃ s', anyMap JsonP.ops first a (PI.init s) =
          .ok (a ++ tailText first (compactWith.members (JStr.val conv) ms) ++ [0x7D], PI.init s') ∧ Q s' := by
      intro ms
      induction ms with
      | nil =>
        intro _ s first a _ ⟨s1, e1, hq⟩
        refine ⟨s1, ?_, hq⟩
        rw [anyMap, gets_next JsonP.ops e1]
        cases first <;> simp [tailText, compactWith.members, commas]
      | cons m ms ih2 =>
        obtain ⟨k, v⟩ := m
        intro ih s first a hc ⟨s1, e1, ⟨s2, e2, s3, e3, h⟩, _⟩
        simp only [allStrings.members, Bool.and_eq_true] at hc
        obtain ⟨s4, e4, h4⟩ := ih (k, v) (by simp) ((if first then a else a ++ [0x2C]) ++ [0x22] ++ (jsem conv).key k ++ [0x22, 0x3A]) hc.1 h
        obtain ⟨s5, e5, h5⟩ := ih2 (fun v hv => ih v (by simp [hv])) s4 false _ hc.2 h4
        refine ⟨s5, ?_, h5⟩
        rw [anyMap, gets_next JsonP.ops e1]
        simp only [Res.ok_bind, PI.init] at *
        rw [if_neg (by simp), if_neg (by simp), e2]
        simp only [Res.ok_bind]
        have := gets_next JsonP.ops e3
        unfold Gets at this
        simp only [PI.init] at this
        rw [this]
        simp only [Res.ok_bind]
        rw [e4]
        simp only [Res.ok_bind]
        rw [e5]
        simp only [compactWith.members, ← tailText_cons]
        simp [jsem]
    obtain ⟨s', e, hq⟩ := key ms ih s true (a ++ [0x7B]) (by simpa [allStrings] using hc) h
    refine ⟨s', ?_, hq⟩
    show anyToken JsonP.ops .MapStart a (PI.init s) = _
    rw [anyToken, e]
    simp [tailText, compactWith]

/-- The import of a JSON text into an `AnyBlock` that holds the text `a`: the text it then holds. -/
noncomputable def jsonImportAny (conv : Bool) (a t : Bytes) : Res Bytes := do
  let (v, _) ← importAny JsonP.ops a (PI.init (JsonP.ofBytes t conv))
  return v

theorem any_doc (conv : Bool) {v : JTree} {t : Bytes} (a : Bytes) (hd : JDoc codePair v t) (hc : allStrings JStr.copies v = true) :
    jsonImportAny conv a t = .ok (a ++ compactWith (JStr.val conv) v) := by
  obtain ⟨w1, tv, w2, hw1, hw2, hv, rfl⟩ := hd
  obtain ⟨s1, h1, s2, h2, h3⟩ := doc_presents (conv := conv) hw1 hv (.of (valueEnds_ws hw2))
  obtain ⟨s3, e3, s4, e4, -⟩ := any_after conv v a hc h3
  have e1 : JsonP.ops.next (JsonP.ofBytes (w1 ++ tv ++ w2) conv) = .ok (.DocStart, s1) := h1
  have e4 : JsonP.ops.next s3 = .ok (.DocEnd, s4) := e4
  rw [jsonImportAny, importAny, gets_next JsonP.ops e1]
  simp only [Res.ok_bind]
  rw [if_neg (by simp), anyScan, gets_next JsonP.ops h2]
  simp only [Res.ok_bind]
  rw [e3]
  simp only [Res.ok_bind]
  rw [gets_next JsonP.ops e4]
  rfl

/-- The compact text is a text of the tree. -/
theorem compact_text {pr : Nat → Nat → Bytes} (v : JTree) : ∀ t, JText pr v t → JText pr v (compact v) := by
  unfold compact
  induction v using Spec.Tr.induct with
  | hs x =>
    intro t h
    cases x with
    | null => rfl
    | bool b => rfl
    | int t i => obtain ⟨h1, h2⟩ := h; subst h1; exact ⟨rfl, h2⟩
    | frac t => obtain ⟨h1, h2⟩ := h; subst h1; exact ⟨rfl, h2⟩
    | str b => exact ⟨h.1, rfl⟩
  | ha vs ih =>
    intro t h
    have nows : Ws [] := by intro c hc; cases hc
    have key : ∀ (vs : List JTree), (∀ v ∈ vs, ∀ t, JText pr v t → JText pr v (compactWith JStr.raw v)) →
        ∀ ps, JText.elems pr vs ps → JText.elems pr vs (compactWith.elems JStr.raw vs) := by
      intro vs
      induction vs with
      | nil => intro _ ps h; rfl
      | cons v vs ih2 =>
        intro ih ps ⟨w1, tv, w2, ps', hw1, hw2, htv, hps, e⟩
        exact ⟨[], _, [], _, nows, nows, ih v (by simp) _ htv, ih2 (fun v hv => ih v (by simp [hv])) _ hps, by simp [compactWith.elems]⟩
    cases vs with
    | nil => exact ⟨[], nows, rfl⟩
    | cons v vs =>
      obtain ⟨ps, hps, e⟩ := h
      exact ⟨_, key _ ih ps hps, rfl⟩
  | ho ms ih =>
    intro t h
    have nows : Ws [] := by intro c hc; cases hc
    have key : ∀ (ms : List (JStr × JTree)), (∀ m ∈ ms, ∀ t, JText pr m.2 t → JText pr m.2 (compactWith JStr.raw m.2)) →
        ∀ ps, JText.members pr ms ps → JText.members pr ms (compactWith.members JStr.raw ms) := by
      intro ms
      induction ms with
      | nil => intro _ ps h; rfl
      | cons m ms ih2 =>
        obtain ⟨k, v⟩ := m
        intro ih ps ⟨w1, w2, w3, tv, w4, ps', hw1, hw2, hw3, hw4, hk, htv, hps, e⟩
        exact ⟨[], [], [], _, [], _, nows, nows, nows, nows, hk, ih (k, v) (by simp) _ htv,
          ih2 (fun v hv => ih v (by simp [hv])) _ hps, by simp [compactWith.members]⟩
    cases ms with
    | nil => exact ⟨[], nows, rfl⟩
    | cons v vs =>
      obtain ⟨ps, hps, e⟩ := h
      exact ⟨_, key _ ih ps hps, rfl⟩

theorem compactWith_congr {f g : JStr → Bytes} (v : JTree) : allKeys (fun k => f k == g k) v = true → compactWith f v = compactWith g v := by
  induction v using Spec.Tr.induct with
  | hs x => intro _; rfl
  | ha vs ih =>
    intro h
    have : compactWith.elems f vs = compactWith.elems g vs := by
      simp only [allKeys] at h
      induction vs with
      | nil => rfl
      | cons v vs ih2 =>
        simp only [allKeys.elems, Bool.and_eq_true] at h
        simp only [compactWith.elems]
        rw [ih v (by simp) h.1, ih2 (fun v hv => ih v (by simp [hv])) h.2]
    simp only [compactWith, this]
  | ho ms ih =>
    intro h
    have : compactWith.members f ms = compactWith.members g ms := by
      simp only [allKeys] at h
      induction ms with
      | nil => rfl
      | cons m ms ih2 =>
        obtain ⟨k, v⟩ := m
        simp only [allKeys.members, Bool.and_eq_true] at h
        simp only [compactWith.members]
        rw [ih (k, v) (by simp) h.2.1, ih2 (fun v hv => ih v (by simp [hv])) h.2.2, eq_of_beq h.1]
    simp only [compactWith, this]

theorem basic_plain {p u : Bytes} (h : BasicItem p u) (hc : (0x5C : UInt8) ∉ p) : u = p := by
  cases h with
  | raw c _ _ _ => rfl
  | _ => exact absurd (by simp) hc

theorem body_plain {pr : Nat → Nat → Bytes} {t o : Bytes} (h : Body pr t o) (hc : (0x5C : UInt8) ∉ t) : o = t := by
  induction h with
  | nil => rfl
  | basic h _ ih =>
    simp only [List.mem_append, not_or] at hc
    rw [ih hc.2, basic_plain h hc.1]
  | pair h _ ih =>
    exfalso
    cases h
    simp at hc

theorem text_recode {pr pr' : Nat → Nat → Bytes} (conv : Bool) (v : JTree) : ∀ t, JText pr v t → allKeys JStr.plain v = true →
    ∃ v', JText pr' v' t ∧ compactWith (JStr.val conv) v' = compact v ∧ allStrings JStr.copies v' = allStrings JStr.copies v := by
  unfold compact
  induction v using Spec.Tr.induct with
  | hs x =>
    intro t h _
    cases x with
    | str b =>
      obtain ⟨h1, h2⟩ := h
      obtain ⟨d, h3⟩ := body_change (pr' := pr') h1
      exact ⟨.scalar (.str ⟨b.raw, d⟩), ⟨h3, h2⟩, rfl, rfl⟩
    | null => exact ⟨.scalar .null, h, rfl, rfl⟩
    | bool b => exact ⟨.scalar (.bool b), h, rfl, rfl⟩
    | int t i => exact ⟨.scalar (.int t i), h, rfl, rfl⟩
    | frac t y => exact ⟨.scalar (.frac t y), h, rfl, rfl⟩
  | ha vs ih =>
    intro t h hk
    have key : ∀ (vs : List JTree), (∀ v ∈ vs, ∀ t, JText pr v t → allKeys JStr.plain v = true →
          ∃ v', JText pr' v' t ∧ compactWith (JStr.val conv) v' = compactWith JStr.raw v ∧ allStrings JStr.copies v' = allStrings JStr.copies v) →
        ∀ ps, JText.elems pr vs ps → allKeys.elems JStr.plain vs = true →
          ∃ vs', JText.elems pr' vs' ps ∧ compactWith.elems (JStr.val conv) vs' = compactWith.elems JStr.raw vs ∧
          allStrings.elems JStr.copies vs' = allStrings.elems JStr.copies vs ∧ vs'.length = vs.length := by
      intro vs
      induction vs with
      | nil => intro _ ps h _; exact ⟨[], h, rfl, rfl, rfl⟩
      | cons v vs ih2 =>
        intro ih ps ⟨w1, tv, w2, ps', hw1, hw2, htv, hps, e⟩ hk
        simp only [allKeys.elems, Bool.and_eq_true] at hk
        obtain ⟨v', h1, e1, f1⟩ := ih v (by simp) tv htv hk.1
        obtain ⟨vs', h2, e2, f2, e3⟩ := ih2 (fun v hv => ih v (by simp [hv])) ps' hps hk.2
        exact ⟨v' :: vs', ⟨w1, tv, w2, ps', hw1, hw2, h1, h2, e⟩, by simp [compactWith.elems, e1, e2], by simp [allStrings.elems, f1, f2], by simp [e3]⟩
    simp only [allKeys] at hk
    cases vs with
    | nil => exact ⟨.arr [], h, rfl, rfl⟩
    | cons v vs =>
      obtain ⟨ps, hps, e⟩ := h
      obtain ⟨vs', h1, e1, f1, e2⟩ := key _ ih ps hps hk
      cases vs' with
      | nil => simp at e2
      | cons v' vs' => exact ⟨.arr (v' :: vs'), ⟨ps, h1, e⟩, by simp [compactWith, e1], by simp [allStrings, f1]⟩
  | ho ms ih =>
    intro t h hk
    have key : ∀ (ms : List (JStr × JTree)), (∀ m ∈ ms, ∀ t, JText pr m.2 t → allKeys JStr.plain m.2 = true →
          ∃ v', JText pr' v' t ∧ compactWith (JStr.val conv) v' = compactWith JStr.raw m.2 ∧ allStrings JStr.copies v' = allStrings JStr.copies m.2) →
        ∀ ps, JText.members pr ms ps → allKeys.members JStr.plain ms = true →
          ∃ ms', JText.members pr' ms' ps ∧ compactWith.members (JStr.val conv) ms' = compactWith.members JStr.raw ms ∧
          allStrings.members JStr.copies ms' = allStrings.members JStr.copies ms ∧ ms'.length = ms.length := by
      intro ms
      induction ms with
      | nil => intro _ ps h _; exact ⟨[], h, rfl, rfl, rfl⟩
      | cons m ms ih2 =>
        obtain ⟨k, v⟩ := m
        intro ih ps ⟨w1, w2, w3, tv, w4, ps', hw1, hw2, hw3, hw4, hb, htv, hps, e⟩ hk
        simp only [allKeys.members, Bool.and_eq_true] at hk
        obtain ⟨v', h1, e1, f1⟩ := ih (k, v) (by simp) tv htv hk.2.1
        obtain ⟨ms', h2, e2, f2, e3⟩ := ih2 (fun v hv => ih v (by simp [hv])) ps' hps hk.2.2
        obtain ⟨d, hd⟩ := body_change (pr' := pr') hb
        have hpl : (0x5C : UInt8) ∉ k.raw := by simpa [JStr.plain] using hk.1
        have hdk : JStr.val conv ⟨k.raw, d⟩ = k.raw := by
          cases conv
          · rfl
          · exact body_plain hd hpl
        exact ⟨(⟨k.raw, d⟩, v') :: ms', ⟨w1, w2, w3, tv, w4, ps', hw1, hw2, hw3, hw4, hd, h1, h2, e⟩,
          by simp [compactWith.members, e1, e2, hdk], by simp [allStrings.members, f1, f2], by simp [e3]⟩
    simp only [allKeys] at hk
    cases ms with
    | nil => exact ⟨.obj [], h, rfl, rfl⟩
    | cons v vs =>
      obtain ⟨ps, hps, e⟩ := h
      obtain ⟨vs', h1, e1, f1, e2⟩ := key _ ih ps hps hk
      cases vs' with
      | nil => simp at e2
      | cons v' vs' => exact ⟨.obj (v' :: vs'), ⟨ps, h1, e⟩, by simp [compactWith, e1], by simp [allStrings, f1]⟩

end Thors
