import Verif.Proofs.JsonImport
/-
Properties C12, C16: the JSON reader accepts every document, and skips values.
-/
namespace Thors.Props
open Thors Spec StrIn

/-- C12. For every JSON document `t` with tree `v` (`JDoc` is the grammar of RFC 8259; any depth, any white
space), a fresh reader announces document start, then shows exactly the events of `v` with their contents
(strings and keys decoded, numbers as written), then announces document end; there is no error on the way.
`codePair` is the library's reading of `\uD8xx\uDCxx` pairs, which is C04's subject. -/
theorem C12_document_events (v : JTree) (t : Bytes) (conv : Bool) (h : JDoc codePair v t) :
    ∃ s1 s2 s3, (JsonP.ofBytes t conv).getNextToken = .ok (.DocStart, s1) ∧ Sees s1 (jevents conv v) s2 ∧
      s2.getNextToken = .ok (.DocEnd, s3) := by
  obtain ⟨w1, tv, w2, hw1, hw2, hv, rfl⟩ := h
  obtain ⟨s1, e1, h1⟩ := doc_presents (conv := conv) hw1 hv (.of (valueEnds_ws hw2))
  obtain ⟨s2, h2, s3, e3, -⟩ := presents_sees v h1
  exact ⟨s1, s2, s3, e1, h2, e3⟩

/-- C12, for the RFC's own reading of surrogate pairs (or any other): the document is accepted and the
tokens are those of `v`. -/
theorem C12_accepts_every_document (pr : Nat → Nat → Bytes) (v : JTree) (t : Bytes) (conv : Bool) (h : JDoc pr v t) :
    ∃ es s1 s2 s3, (JsonP.ofBytes t conv).getNextToken = .ok (.DocStart, s1) ∧ Sees s1 es s2 ∧
      s2.getNextToken = .ok (.DocEnd, s3) ∧ es.map JEv.tok = (jevents conv v).map JEv.tok := by
  obtain ⟨w1, tv, w2, hw1, hw2, hv, rfl⟩ := h
  obtain ⟨v', hv', e⟩ := text_change (pr' := codePair) conv v tv hv
  obtain ⟨s1, s2, s3, h1, h2, h3⟩ := C12_document_events v' _ conv ⟨w1, tv, w2, hw1, hw2, hv', rfl⟩
  exact ⟨_, s1, s2, s3, h1, h2, h3, e⟩

/-- non-vacuity: ` {"a" : [1, -2.5e3,"\n"]} ` is such a document. -/
example : JDoc codePair
    (.obj [(⟨b!"a", b!"a"⟩, .arr [.scalar (.int b!"1" 1), .scalar (.frac b!"-2.5e3" ⟨true, 25, 2⟩), .scalar (.str ⟨b!"\\n", [0x0A]⟩)])])
    b!" {\"a\" : [1, -2.5e3,\"\\n\"]} " := by
  have d : ∀ n : Nat, n < 10 → Dec [UInt8.ofNat (0x30 + n)] n := fun n h => .one (.mk n h)
  refine ⟨b!" ", b!"{\"a\" : [1, -2.5e3,\"\\n\"]}", b!" ", by simp [Ws], by simp [Ws], ?_, rfl⟩
  refine ⟨_, ⟨[], b!" ", b!" ", b!"[1, -2.5e3,\"\\n\"]", [], [], by simp [Ws], by simp [Ws], by simp [Ws], by simp [Ws],
    .basic (.raw 0x61 (by decide) (by decide) (by decide)) .nil, ?_, rfl, rfl⟩, rfl⟩
  refine ⟨_, ⟨[], b!"1", [], _, by simp [Ws], by simp [Ws], ⟨rfl, .pos (d 1 (by decide)), by simp [litLeadingZero, leadingZero]⟩,
    ⟨b!" ", b!"-2.5e3", [], _, by simp [Ws], by simp [Ws], ?_, ⟨[], b!"\"\\n\"", [], _, by simp [Ws], by simp [Ws], ?_, rfl, rfl⟩, rfl⟩, rfl⟩, rfl⟩
  · exact ⟨rfl, ⟨b!"-2", _, b!".5", b!"e3", .neg (d 2 (by decide)), by simp [litLeadingZero, leadingZero],
      .inr ⟨b!"5", ⟨_, d 5 (by decide)⟩, rfl⟩, .inr ⟨0x65, [], b!"3", .inl rfl, .inl rfl, ⟨_, d 3 (by decide)⟩, rfl⟩, by simp, rfl⟩,
      b!"-", b!"2", b!".5", b!"e3", 2, 1, 5, 3, rfl, d 2 (by decide), by simp [leadingZero], .inr ⟨b!"5", rfl, d 5 (by decide), rfl⟩,
      .inr ⟨0x65, [], b!"3", 3, .inl rfl, d 3 (by decide), rfl, .inl ⟨rfl, rfl⟩⟩, rfl, by decide, by decide⟩
  · exact ⟨.basic (.short .n) .nil, rfl⟩

/-- C16, proved part. In Weak mode an unknown member is skipped with `ignoreValue`. Wherever the reader
stands between the key of a member and its value (`w1 : w2 value post`), skipping consumes exactly the value:
the reader then stands at `post`, in the state it would be in after reading the value. Missing: values that
contain a string (or key) whose body ends in a backslash, i.e. in `\\`, or contains the byte 0xFF; for these
the claim is false, see `C16_false_for_backslash`. -/
theorem C16_skip_exact_partial (v : JTree) (tv w1 w2 post : Bytes) (conv : Bool) (enclosing : List JState) (p : PI JsonP)
    (hv : JText codePair v tv) (hw1 : Ws w1) (hw2 : Ws w2) (hpost : Ends v post)
    (hskip : v.skippable (jsem conv) = true)
    (hat : At conv ⟨.ValueM, .Key, enclosing, true⟩ (w1 ++ [0x3A] ++ w2 ++ tv ++ post) p.inner) :
    ∃ s', PI.ignoreValue JsonP.ops .Weak p = .ok { p with inner := s' } ∧ At conv ⟨.ValueM, .ValueM, enclosing, true⟩ post s' := by
  have := presents_text conv v tv hv _ (w1 ++ 0x3A :: w2) post p.inner (.member (ps := enclosing) hw1 hw2) hpost (by simpa using hat)
  obtain ⟨s', e, h⟩ := skip_presents _ _ hskip this
  refine ⟨s', ?_, h⟩
  unfold PI.ignoreValue
  rw [if_neg (by simp), e]
  rfl

/-- A parser standing at a text in the middle of an object, behind a key. -/
def behindKey (t : Bytes) : JsonP where
  lex := { inp := StrIn.ofBytes t, buffer := [], lastToken := none, lastBool := false, lastNull := false, convertBackSlash := true }
  ctl := ⟨.ValueM, .Key, [.Done], true⟩

theorem at_behindKey (t : Bytes) : At true ⟨.ValueM, .Key, [.Done], true⟩ t (behindKey t) :=
  ⟨rfl, ⟨by simp [behindKey, StrIn.ofBytes, StrIn.rest], rfl, by simp [behindKey, StrIn.ofBytes]⟩, rfl⟩

/-- non-vacuity: a value and a text that satisfy the hypotheses. -/
example : ∃ v tv, JText codePair v tv ∧ v.skippable (jsem true) = true ∧ tv = b!"[null, true]" ∧
    At true ⟨.ValueM, .Key, [.Done], true⟩ ([] ++ [0x3A] ++ b!" " ++ tv ++ b!",\"a\":1}") (behindKey b!": [null, true],\"a\":1}") :=
  ⟨.arr [.scalar .null, .scalar (.bool true)], _,
    ⟨_, ⟨[], b!"null", [], _, by simp [Ws], by simp [Ws], rfl, ⟨b!" ", b!"true", [], _, by simp [Ws], by simp [Ws], rfl, rfl, rfl⟩, rfl⟩, rfl⟩,
    by decide, rfl, at_behindKey _⟩

/-- C16 is false in full: the value `"\\"` (a string holding one backslash) followed by `,"a":1}` is a legal
member value, but skipping it runs past its closing quote and stops inside the next key. -/
theorem C16_false_for_backslash :
    ¬ ∀ (v : JTree) (tv w1 w2 post : Bytes) (p : PI JsonP), JText codePair v tv → Ws w1 → Ws w2 → Ends v post →
      At true ⟨.ValueM, .Key, [.Done], true⟩ (w1 ++ [0x3A] ++ w2 ++ tv ++ post) p.inner →
      ∃ s', PI.ignoreValue JsonP.ops .Weak p = .ok { p with inner := s' } ∧ At true ⟨.ValueM, .ValueM, [.Done], true⟩ post s' := by
  intro h
  obtain ⟨s', e, hat⟩ := h (.scalar (.str ⟨b!"\\\\", b!"\\"⟩)) b!"\"\\\\\"" [] [] b!",\"a\":1}" (PI.init (behindKey b!":\"\\\\\",\"a\":1}"))
    ⟨.basic (.short .backslash) .nil, rfl⟩ (by simp [Ws]) (by simp [Ws]) trivial (at_behindKey _)
  have hr := hat.inp.1
  have he : ∃ s, (do let x ← (behindKey b!":\"\\\\\",\"a\":1}").getNextToken; x.2.ignoreDataValue) = .ok s ∧ s.lex.inp.rest = b!"a\":1}" := ⟨_, rfl, rfl⟩
  obtain ⟨s2, e2, hr2⟩ := he
  have e3 : ignoreTheValue JsonP.ops (behindKey b!":\"\\\\\",\"a\":1}") = .ok s2 := by
    rw [← e2, ignoreTheValue]
    rfl
  unfold PI.ignoreValue at e
  rw [if_neg (by simp)] at e
  simp only [PI.init] at e
  rw [e3] at e
  simp only [Res.ok_bind, Res.pure_eq, Res.ok.injEq, PI.mk.injEq, and_true] at e
  subst e
  rw [hr2] at hr
  exact absurd hr (by decide)

end Thors.Props
