import Verif.Proofs.AnyMore
import Verif.Props.Samples
import Verif.Props.SameDoc
/-
C103: what an `AnyBlock` captures from JSON streams, BSON and YAML.
-/
namespace Thors.Props
open Thors Thors.Spec StrIn

/-- C103, JSON from a stream: the captured text (behind what the block already held, `a`) is the compact text of the value, a document that denotes
the same value; the stream stands behind the value. The keys contain no escapes and no string value ends in an escaped backslash; a number
that stands for itself is followed by something. Strings outside ASCII are captured here (compare `C46_false_for_utf8`). -/
theorem C103_json_stream_partial (conv : Bool) (v : JTree) (w tv post a : Bytes) (hw : Ws w) (hv : JText codePair v tv) (hp : Ends v post)
    (hn : ∀ x, v = .scalar x → (∃ d, x.number = some d) → post ≠ []) (hs : allStrings JStr.streamSkips v = true) (hk : allKeys JStr.plain v = true) (i : IStr)
    (hi : OkS (w ++ tv ++ post) i) :
    (∃ i', jsonStreamImportAny conv a i = .ok (a ++ compact v, i') ∧ OkS post i') ∧ JDoc codePair v (compact v) := by
  refine ⟨jsonStreamImportAny_doc (stream_anyText conv v tv hv hs hk) hw hv hp (fun x e hx => hn x e ?_) hi a, [], compact v, [], by simp [Ws], by simp [Ws], compact_text v tv hv, by simp⟩
  cases x <;> first | exact ⟨_, rfl⟩ | cases hx

/-- C103, BSON: `v` is a JSON document, `u` a BSON document that says the same, and the element `u`, named `k`, is all there is in the document read.
The captured text is the compact text of `v`. Strings and keys contain nothing that has to be escaped, no number has a fraction.
(Missing: the others, and documents that are not wrapped in that way, see `C103_false_bson`.) -/
theorem C103_bson_partial (conv : Bool) (pr : Nat → Nat → Bytes) (v : JTree) (u : BTree) (t k a rest : Bytes) (hd : JDoc pr v t) (hu : SameDoc conv v u) (hw : WholeNumbers v)
    (hs : allStrings JStr.plain v = true) (hk : allKeys JStr.plain v = true) (hkey : (0x00 : Byte) ∉ k) (hks : AllKeys (fun k => (0x00 : Byte) ∉ k) u)
    (hss : AllScalars BScalar.valid u) (hlen : (framed (btype u :: k ++ [0x00] ++ bpayload u)).length < 2 ^ 31) :
    bsonImportAny a (framed (btype u :: k ++ [0x00] ++ bpayload u) ++ rest) = .ok (a ++ compact v) ∧ JDoc pr v (compact v) := by
  obtain ⟨w1, tv, w2, -, -, hv, -⟩ := hd
  exact ⟨bsonImportAny_doc (bson_anyText conv v u tv hv hu hw hs hk) hkey hks hss hlen a rest, [], compact v, [], by simp [Ws], by simp [Ws], compact_text v tv hv, by simp⟩

/-- C103, YAML: the document `v` without string values, whatever follows it. (Missing: string values, see `C103_false_yaml`.) -/
theorem C103_yaml_partial (conv : Bool) (pr : Nat → Nat → Bytes) (v : JTree) (t a : Bytes) (es : List YEv) (hd : JDoc pr v t)
    (hs : allStrings (fun _ => false) v = true) (hk : allKeys JStr.plain v = true) :
    yamlImportAny a ([.streamStart, .docStart] ++ yevents (asYaml conv v) ++ .docEnd :: es) = .ok (a ++ compact v) ∧ JDoc pr v (compact v) := by
  obtain ⟨w1, tv, w2, -, -, hv, -⟩ := hd
  exact ⟨yamlImportAny_doc (yaml_anyText conv v tv hv hs hk) a es, [], compact v, [], by simp [Ws], by simp [Ws], compact_text v tv hv, by simp⟩

/-- non-vacuity of the three: `{"a":[1,2]}`. -/
example (i : IStr) (hi : OkS b!"{\"a\":[1,2]} 7" i) : ∃ i', jsonStreamImportAny true [] i = .ok (b!"{\"a\":[1,2]}", i') ∧ OkS b!" 7" i' :=
  (C103_json_stream_partial true json102 [] b!"{\"a\":[1,2]}" b!" 7" [] (by simp [Ws]) (Samples.plain_text json102 (by decide)) trivial (by simp [json102]) (by decide) (by decide) i hi).1
example (rest : Bytes) : bsonImportAny [] (framed (0x03 :: b!"doc" ++ [0x00] ++ bpayload bson102) ++ rest) = .ok b!"{\"a\":[1,2]}" :=
  (C103_bson_partial true codePair json102 bson102 b!"{\"a\":[1,2]}" b!"doc" [] rest (Samples.plain_doc json102 (by decide)) same102
    (by simp [WholeNumbers, WholeNumbers.members, WholeNumbers.elems, json102, Samples.num]) (by decide) (by decide) (by decide) storable102.keys storable102.scalars (by decide +kernel)).1
example : yamlImportAny [] (ydoc (.obj [(b!"a", .arr [.scalar b!"1", .scalar b!"2"])])) = .ok b!"{\"a\":[1,2]}" :=
  (C103_yaml_partial true codePair json102 b!"{\"a\":[1,2]}" [] [.streamEnd] (Samples.plain_doc json102 (by decide)) (by decide) (by decide)).1

theorem no_open_map {K X σ : Type} {o : POps σ} {sem : ScalarSem K X} {v : Tr K X} {Q : σ → Prop} {s s1 s2 : σ} (ht : Tok.ArrayStart = v.tok)
    (h1 : o.next s = .ok (.MapStart, s1)) (h2 : o.next s1 = .ok (.Error, s2)) : ¬ After o sem v Q s := by
  intro h
  cases v with
  | scalar x => exact absurd ht (by simp [Tr.tok])
  | obj ms => exact absurd ht (by simp [Tr.tok])
  | arr vs =>
    obtain ⟨-, h⟩ := h
    cases vs with
    | nil => obtain ⟨s3, h3, -⟩ := h; rw [h1] at h3; cases h3
    | cons t ts =>
      obtain ⟨s3, h3, h⟩ := h
      rw [h1] at h3
      simp only [Res.ok.injEq, Prod.mk.injEq] at h3
      obtain ⟨h3, rfl⟩ := h3
      cases t with
      | arr _ => exact absurd h3 (by simp [Tr.tok])
      | scalar _ => exact absurd h3 (by simp [Tr.tok])
      | obj ms =>
        obtain ⟨-, h⟩ := h
        cases ms with
        | nil => obtain ⟨s4, h4, -⟩ := h; rw [h2] at h4; cases h4
        | cons m ms => obtain ⟨s4, h4, -⟩ := h; rw [h2] at h4; cases h4

/-- C103 is false for YAML strings: the text of the document `hello` is captured without quotes, and what is captured from the list with the string `{` is
no JSON text. -/
theorem C103_false_yaml : yamlImportAny [] (ydoc (.scalar b!"hello")) = .ok b!"hello" ∧
    yamlImportAny [] (ydoc (.arr [.scalar b!"{"])) = .ok b!"[{]" ∧ ¬ ∃ pr v, JDoc pr v b!"[{]" := by
  refine ⟨yamlImportAny_doc (v := .scalar b!"hello") (b := b!"hello") rfl [] [.streamEnd], yamlImportAny_doc (v := .arr [.scalar b!"{"]) (b := b!"[{]") rfl [] [.streamEnd], ?_⟩
  rintro ⟨pr, v, w1, tv, w2, hw1, hw2, hv, e⟩
  obtain ⟨v', hv', -⟩ := text_change (pr' := codePair) true v tv hv
  obtain ⟨s1, h1, s2, h2, h3⟩ := doc_presents (conv := true) hw1 hv' (.of (valueEnds_ws hw2))
  rw [← e] at h1
  obtain rfl : _ = s1 := congrArg Prod.snd (Res.ok_inj (show Res.ok _ = _ from h1))
  have h2 : Res.ok (Tok.ArrayStart, _) = Res.ok (v'.tok, s2) := h2
  obtain rfl : _ = s2 := congrArg Prod.snd (Res.ok_inj h2)
  have ht : Tok.ArrayStart = v'.tok := congrArg Prod.fst (Res.ok_inj h2)
  exact no_open_map ht rfl rfl h3

/-- C103 is false for BSON: of the document `{"a":1}` only `1` is captured; a quote in a string is not escaped; of a fraction only six digits are
captured. -/
theorem C103_false_bson (rest : Bytes) : bsonImportAny [] (bdoc (.obj [(b!"a", .scalar (.int32 1))]) ++ rest) = .ok b!"1" ∧
    bsonImportAny [] (bdoc (.scalar (.str b!"a\"b")) ++ rest) = .ok b!"\"a\"b\"" ∧
    bsonImportAny [] (bdoc (.scalar (.fixed .double [0x00, 0x00, 0x00, 0x00, 0x00, 0x00, 0x80, 0x3E])) ++ rest) = .ok b!"0.000000" := by
  refine ⟨?_, ?_, ?_⟩
  · exact bsonImportAny_doc (k := b!"a") (u := .scalar (.int32 1)) (b := b!"1") (by decide +kernel) (by decide) trivial (by simp [AllScalars, BScalar.valid]) (by decide) [] rest
  · exact bsonImportAny_doc (k := b!"0") (u := .scalar (.str b!"a\"b")) (b := b!"\"a\"b\"") rfl (by decide) trivial trivial (by decide) [] rest
  · exact bsonImportAny_doc (k := b!"0") (u := .scalar (.fixed .double [0x00, 0x00, 0x00, 0x00, 0x00, 0x00, 0x80, 0x3E])) (b := b!"0.000000") (by
      show some (fixed6 f64 (payloadDouble _)) = _
      decide +kernel) (by decide) trivial (by simp [AllScalars, BScalar.valid, Fixed.width]) (by decide) [] rest

end Thors.Props
