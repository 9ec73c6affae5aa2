import Verif.Proofs.AnyBlock
/-
Property C46: what an `AnyBlock` captures.
-/
namespace Thors.Props
open Thors Spec StrIn

/-- C46, in full: importing a JSON document into a fresh `AnyBlock` captures the compact text of the
document's value, which denotes the same value. `pr` is the meaning of surrogate pairs. -/
def AnyBlockClaim (pr : Nat → Nat → Bytes) : Prop :=
  ∀ (v : JTree) (t : Bytes), JDoc pr v t → jsonImportAny true [] t = .ok (compact v) ∧ JDoc pr v (compact v)

/-- C46 for the documents whose keys contain no escapes and whose string values are ASCII and do not end in
an escaped backslash: the captured text (behind what the block already held, `a`) is the compact text of the
value, a document that denotes the same value. Missing: the other documents, for which the claim is false
(`C46_false_for_escaped_keys`, `C46_false_for_utf8`, `C46_false_for_backslash`). -/
theorem C46_any_block_partial (pr : Nat → Nat → Bytes) (conv : Bool) (v : JTree) (t a : Bytes) (h : JDoc pr v t)
    (hs : allStrings JStr.copies v = true) (hk : allKeys JStr.plain v = true) :
    jsonImportAny conv a t = .ok (a ++ compact v) ∧ JDoc pr v (compact v) := by
  obtain ⟨w1, tv, w2, hw1, hw2, hv, rfl⟩ := h
  refine ⟨?_, ⟨[], compact v, [], by simp [Ws], by simp [Ws], compact_text v tv hv, by simp⟩⟩
  obtain ⟨v', h1, e1, e2⟩ := text_recode (pr' := codePair) conv v tv hv hk
  rw [← e1]
  exact any_doc conv a ⟨w1, tv, w2, hw1, hw2, h1, rfl⟩ (by rw [e2, hs])

/-- The compact text really has no white space between its parts: importing it again captures it
unchanged. -/
theorem C46_any_block_stable_partial (pr : Nat → Nat → Bytes) (conv : Bool) (v : JTree) (t : Bytes) (h : JDoc pr v t)
    (hs : allStrings JStr.copies v = true) (hk : allKeys JStr.plain v = true) :
    ∃ out, jsonImportAny conv [] t = .ok out ∧ jsonImportAny conv [] out = .ok out := by
  obtain ⟨h1, h2⟩ := C46_any_block_partial pr conv v t [] h hs hk
  exact ⟨_, h1, (C46_any_block_partial pr conv v _ [] h2 hs hk).1⟩

/-- The document ` { "k" : [ 1 , "a\nb" ] } `. -/
def anyDoc : Bytes := b!" { \"k\" : [ 1 , \"a\\nb\" ] } "
def anyTree : JTree := .obj [(⟨b!"k", b!"k"⟩, .arr [.scalar (.int b!"1" 1), .scalar (.str ⟨b!"a\\nb", [0x61, 0x0A, 0x62]⟩)])]

theorem anyDoc_ok (pr : Nat → Nat → Bytes) : JDoc pr anyTree anyDoc := by
  have sp : Ws b!" " := by simp [Ws]
  refine ⟨b!" ", b!"{ \"k\" : [ 1 , \"a\\nb\" ] }", b!" ", sp, sp, ?_, rfl⟩
  refine ⟨_, ⟨b!" ", b!" ", b!" ", b!"[ 1 , \"a\\nb\" ]", b!" ", [], sp, sp, sp, sp,
    .basic (.raw 0x6B (by decide) (by decide) (by decide)) .nil, ?_, rfl, rfl⟩, rfl⟩
  refine ⟨_, ⟨b!" ", b!"1", b!" ", _, sp, sp, ⟨rfl, .pos (.one (.mk 1 (by decide))), by simp [litLeadingZero, leadingZero]⟩,
    ⟨b!" ", b!"\"a\\nb\"", b!" ", _, sp, sp, ⟨?_, rfl⟩, rfl, rfl⟩, rfl⟩, rfl⟩
  exact .basic (.raw 0x61 (by decide) (by decide) (by decide)) (.basic (.short .n) (.basic (.raw 0x62 (by decide) (by decide) (by decide)) .nil))

/-- non-vacuity of both theorems, and what they say there. -/
example : jsonImportAny true [] anyDoc = .ok b!"{\"k\":[1,\"a\\nb\"]}" :=
  (C46_any_block_partial rfcPair true anyTree anyDoc [] (anyDoc_ok _) (by decide) (by decide)).1

/-- C46 is false when a key contains an escape: the key `\\n` (a backslash and an n) is captured as `\n`,
which denotes a line feed. -/
theorem C46_false_for_escaped_keys (pr : Nat → Nat → Bytes) :
    ∃ v v' t out, JDoc pr v t ∧ allStrings JStr.copies v = true ∧ jsonImportAny true [] t = .ok out ∧ out ≠ compact v ∧
      JDoc pr v' out ∧ v' = .obj [(⟨b!"\\n", [0x0A]⟩, .scalar .null)] ∧ v = .obj [(⟨b!"\\\\n", b!"\\n"⟩, .scalar .null)] := by
  have no : Ws [] := fun c hc => by cases hc
  have hd : ∀ pr, JDoc pr (.obj [(⟨b!"\\\\n", b!"\\n"⟩, .scalar .null)]) b!"{\"\\\\n\":null}" := by
    intro pr
    refine ⟨[], b!"{\"\\\\n\":null}", [], no, no, ⟨_, ⟨[], [], [], b!"null", [], [], no, no, no, no, ?_, rfl, rfl, rfl⟩, rfl⟩, rfl⟩
    exact .basic (.short .backslash) (.basic (.raw 0x6E (by decide) (by decide) (by decide)) .nil)
  have hi := any_doc true [] (hd codePair) (by decide)
  refine ⟨_, _, _, _, hd pr, by decide, hi, by decide, ?_, rfl, rfl⟩
  refine ⟨[], b!"{\"\\n\":null}", [], no, no, ⟨_, ⟨[], [], [], b!"null", [], [], no, no, no, no, ?_, rfl, rfl, rfl⟩, rfl⟩, rfl⟩
  exact .basic (.short .n) .nil

/-- Importing a document that is a single token. -/
theorem importAny_value {t : Bytes} {s1 s2 : JsonP} (h1 : JsonP.ops.next (JsonP.ofBytes t true) = .ok (.DocStart, s1))
    (h2 : JsonP.ops.next s1 = .ok (.Value, s2)) :
    importAny JsonP.ops [] (PI.init (JsonP.ofBytes t true)) = (do
      let (b, s) ← JsonP.ops.getRaw s2
      let (k, p) ← (PI.init s).getToken JsonP.ops
      if k ≠ .DocEnd then throwStd else return (b, p)) := by
  rw [importAny, gets_next JsonP.ops h1]
  simp only [Res.ok_bind]
  rw [if_neg (by simp), anyScan, gets_next JsonP.ops h2]
  simp only [Res.ok_bind]
  rw [anyToken]
  simp only [PI.init]
  cases h : JsonP.ops.getRaw s2 <;> rfl

/-- C46 is false for text outside ASCII: the document `"é"` is refused. -/
theorem C46_false_for_utf8 (pr : Nat → Nat → Bytes) : ¬ AnyBlockClaim pr := by
  intro h
  have hd : JDoc pr (.scalar (.str ⟨[0xC3, 0xA9], [0xC3, 0xA9]⟩)) [0x22, 0xC3, 0xA9, 0x22] := by
    refine ⟨[], _, [], by simp [Ws], by simp [Ws], ⟨?_, rfl⟩, rfl⟩
    exact .basic (.raw 0xC3 (by decide) (by decide) (by decide)) (.basic (.raw 0xA9 (by decide) (by decide) (by decide)) .nil)
  have h1 := (h _ _ hd).1
  rw [jsonImportAny, importAny_value rfl rfl] at h1
  revert h1
  decide

/-- C46 is false for a string that ends in an escaped backslash: the document `"\\"` is refused. -/
theorem C46_false_for_backslash (pr : Nat → Nat → Bytes) : ¬ AnyBlockClaim pr := by
  intro h
  have hd : JDoc pr (.scalar (.str ⟨b!"\\\\", b!"\\"⟩)) b!"\"\\\\\"" := by
    refine ⟨[], _, [], by simp [Ws], by simp [Ws], ⟨?_, rfl⟩, rfl⟩
    exact .basic (.short .backslash) .nil
  have h1 := (h _ _ hd).1
  rw [jsonImportAny, importAny_value rfl rfl] at h1
  revert h1
  decide

end Thors.Props
