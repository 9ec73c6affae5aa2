import Verif.Proofs.Custom
import Verif.Proofs.JsonExport
import Verif.Spec.Layout
import Verif.Props.Samples
/-
C115: classes that write themselves with `operator<<` and read themselves with `operator>>` (ThorsAnvil_MakeTraitCustom).
-/
namespace Thors.Props
open Thors Thors.Spec StrIn

section
variable {V : Type} (S : Streamed V)

/-- C115 for JSON, without strings: if `operator<<` writes numbers, `true`, `false` or `null`, the export is the JSON document with these texts in place of
the objects, in every layout; importing it into any object, or an empty vector, gives the objects back if `operator>>` is the inverse of `operator<<`.

Missing: texts with quotes, backslashes or control characters, which are escaped (`C115_false`). -/
theorem C115_json_partial (cfg : PrintCfg) (f : V → JScalar) (x : CVal V) (hx : CVal.All (fun v => (∀ s, f v ≠ .str s) ∧ ScalarText codePair (f v) (S.put v)) x)
    (hf : FitsIndent cfg 1) : ∃ t, customJson S cfg x = .ok t ∧ JDoc codePair (CVal.tree f x) t ∧
      (CVal.All (Streamed.Undoes S) x → ∀ conv y, CVal.Place x y → jsonCustomImport S conv y t = .ok x) := by
  have hc : CVal.All (fun v => cleanKey (S.put v) ∧ ScalarText codePair (f v) (S.put v)) x := by
    cases x with
    | one v => exact ⟨scalar_clean _ hx.2 hx.1, hx.2⟩
    | vec vs => exact fun v hv => ⟨scalar_clean _ (hx v hv).2 (hx v hv).1, (hx v hv).2⟩
  obtain ⟨t, e⟩ := customJson_ok S (fits_width hf) hc
  have hd := customJson_doc S codePair hc e
  refine ⟨t, e, hd, fun hu conv y hp => jsonCustomImport_doc S hd (read_tree S hu hp ?_)⟩
  have key : ∀ v, ((∀ s, f v ≠ .str s) ∧ ScalarText codePair (f v) (S.put v)) → (jsem conv).raw (f v) = some (S.put v) := by
    rintro v ⟨h1, h2⟩
    generalize f v = z at h1 h2
    cases z with
    | str s => exact absurd rfl (h1 s)
    | null => exact congrArg some h2.symm
    | bool b => exact congrArg some h2.symm
    | int t i => exact congrArg some h2.1.symm
    | frac t d => exact congrArg some h2.1.symm
  cases x with
  | one v => exact key v hx
  | vec vs => exact fun v hv => key v (hx v hv)

/-- C115. Reading any JSON document: `operator>>` gets the text of the scalar as it is written in the document, that of each element of the array for a
vector. -/
theorem C115_read_json (conv : Bool) (v : JTree) (t : Bytes) (hd : JDoc codePair v t) (x y : CVal V) (hy : CVal.read S (jsem conv).raw x v = some y) :
    jsonCustomImport S conv x t = .ok y := jsonCustomImport_doc S hd hy

/-- C115. The same from a stream, which stands behind the document afterwards. -/
theorem C115_read_json_stream (conv : Bool) (v : JTree) (w tv post : Bytes) (hw : Ws w) (hv : JText codePair v tv) (hp : Ends v post)
    (hn : ∀ x, v = .scalar x → post ≠ []) (i : IStr) (hi : OkS (w ++ tv ++ post) i) (x y : CVal V)
    (hy : CVal.read S (jssem conv).raw x v = some y) : ∃ i', jsonStreamCustomImport S conv x i = .ok (y, i') ∧ OkS post i' :=
  jsonStreamCustomImport_doc S hw hv hp (fun x hx _ => hn x hx) hi hy

/-- C115. A document of another shape is refused. -/
theorem C115_shape_json (conv : Bool) (v : JTree) (t : Bytes) (hd : JDoc codePair v t) (hv : ∀ x, v ≠ .scalar x) (o : V) :
    jsonCustomImport S conv (.one o) t = throwStd := by
  obtain ⟨w1, tv, w2, hw1, hw2, hv', rfl⟩ := hd
  obtain ⟨s1, h1, h2⟩ := doc_presents (conv := conv) hw1 hv' (.of (valueEnds_ws hw2))
  rw [jsonCustomImport, customImport_shape S JsonP.ops (jsem conv) (s := JsonP.ofBytes (w1 ++ tv ++ w2) conv) h1 h2 o hv]
  rfl

/-- C115 for BSON: the document holds the texts, whatever they are, as binary data of the user defined subtype 0x80; and the objects come back. The class
has to say the lengths of its texts. -/
theorem C115_bson (x : CVal V) (hx : CVal.All (fun v => ∃ f, S.size = some f ∧ f v = (S.put v).length) x) :
    customBson S x = .ok (bdoc (CVal.tree (fun v => .bin 0x80 (S.put v)) x)) ∧
    (Storable32 (CVal.tree (fun v => .bin 0x80 (S.put v)) x : BTree) → CVal.All (Streamed.Undoes S) x → ∀ y rest, CVal.Place x y →
      bsonCustomImport S y (bdoc (CVal.tree (fun v => .bin 0x80 (S.put v)) x) ++ rest) = .ok x) := by
  refine ⟨customBson_doc S hx, fun hs hu y rest hp => bsonCustomImport_doc S hs (read_tree S hu hp ?_) rest⟩
  cases x with
  | one v => rfl
  | vec vs => exact fun v hv => rfl

/-- C115. Without that function the BSON export throws. -/
theorem C115_bson_size (hs : S.size = none) (v : V) (vs : List V) : customBson S (.one v) = throwStd ∧ customBson S (.vec (v :: vs)) = throwStd := by
  constructor
  · simp only [customBson, customSize, hs]; rfl
  · simp only [customBson, customSizes, customSize, hs]; rfl

/-- C115. Reading any BSON document. -/
theorem C115_read_bson (v : BTree) (h : Storable32 v) (x y : CVal V) (hy : CVal.read S bsem.raw x v = some y) (rest : Bytes) :
    bsonCustomImport S x (bdoc v ++ rest) = .ok y := bsonCustomImport_doc S h hy rest

/-- C115. The same from a stream, which stands behind the document afterwards. -/
theorem C115_read_bson_stream (v : BTree) (h : Storable32 v) (x y : CVal V) (hy : CVal.read S bsem.raw x v = some y) (rest : Bytes) (i : IStr)
    (hi : Stands (bdoc v ++ rest) i) : ∃ i', bsonStreamCustomImport S x i = .ok (y, i') ∧ Stands rest i' := bsonStreamCustomImport_doc S h hy hi

/-- C115 for YAML: the document has the texts as scalars, provided that libyaml accepts them; and the objects come back. -/
theorem C115_yaml (accepts : Bytes → Bool) (x : CVal V) (hx : CVal.All (fun v => accepts (S.put v) = true) x) :
    customYaml S accepts x = .ok (ydoc (CVal.tree S.put x)) ∧
    (CVal.All (Streamed.Undoes S) x → ∀ y, CVal.Place x y → yamlCustomImport S y (ydoc (CVal.tree S.put x)) = .ok x) := by
  refine ⟨customYaml_doc S hx, fun hu y hp => ?_⟩
  rw [show ydoc (CVal.tree S.put x) = [.streamStart, .docStart] ++ yevents (CVal.tree S.put x) ++ .docEnd :: [.streamEnd] by simp [ydoc]]
  refine yamlCustomImport_doc S (read_tree S hu hp ?_) _
  cases x with
  | one v => rfl
  | vec vs => exact fun v hv => rfl

/-- C115. Reading any YAML document. -/
theorem C115_read_yaml (v : YTree) (x y : CVal V) (hy : CVal.read S ysem.raw x v = some y) (es : List YEv) :
    yamlCustomImport S x ([.streamStart, .docStart] ++ yevents v ++ .docEnd :: es) = .ok y := yamlCustomImport_doc S hy es

end

/-! ### A class with a number, and one with a text -/

/-- A class that prints and reads a number in decimal. -/
def counter : Streamed Nat where
  fresh := 0
  put := natText
  get b old := if b ≠ [] ∧ b.all isDigit then (digitsVal b, true) else (old, false)
  size := some fun n => (natText n).length

/-- A class with a text, which it writes in quotes, and from which it removes the first and the last character to read it. -/
def quoted : Streamed Bytes where
  fresh := []
  put s := [0x22] ++ s ++ [0x22]
  get b _ := ((b.drop 1).dropLast, true)
  size := some fun s => s.length + 2

theorem counter_dec (n : Nat) : Dec (natText n) n := natText_dec n

theorem counter_lead (n : Nat) : ¬ litLeadingZero (natText n) := intText_noLeadingZero (n : Int)

theorem counter_undoes (n : Nat) : Streamed.Undoes counter n := by
  intro old
  have h := dec_iff.1 (counter_dec n)
  show (if natText n ≠ [] ∧ (natText n).all isDigit then (digitsVal (natText n), true) else (old, false)) = _
  rw [if_pos ⟨h.1, List.all_eq_true.2 h.2.1⟩, h.2.2]

/-- Non-vacuity: a number, and a vector of them, in every format. -/
example : ∃ t, customJson counter {} (.one 4711) = .ok t ∧ JDoc codePair (.scalar (.int (natText 4711) (4711 : Nat))) t ∧ jsonCustomImport counter true (.one 12) t = .ok (.one 4711) := by
  obtain ⟨t, h1, h2, h3⟩ := C115_json_partial counter {} (fun n => .int (natText n) n) (.one 4711)
    ⟨by simp, rfl, .pos (counter_dec _), counter_lead _⟩ (.inr (by intro k hk; simp [indentation]; omega))
  exact ⟨t, h1, h2, h3 (counter_undoes _) _ _ trivial⟩

example (ns : List Nat) : ∃ t, customJson counter {} (.vec ns) = .ok t ∧ jsonCustomImport counter true (.vec []) t = .ok (.vec ns) := by
  obtain ⟨t, h1, h2, h3⟩ := C115_json_partial counter {} (fun n => .int (natText n) n) (.vec ns)
    (fun n _ => ⟨by simp, rfl, .pos (counter_dec _), counter_lead n⟩) (.inr (by intro k hk; simp [indentation]; omega))
  exact ⟨t, h1, h3 (fun n _ => counter_undoes n) _ _ rfl⟩

example (i : IStr) (hi : OkS b!"[2] " i) : ∃ i', jsonStreamCustomImport counter true (.vec [1]) i = .ok (.vec [1, 2], i') ∧ OkS b!" " i' :=
  C115_read_json_stream counter true (.arr [.scalar (.int b!"2" 2)]) [] b!"[2]" b!" " Samples.ws_nil (Samples.plain_text (.arr [.scalar (.int b!"2" 2)]) rfl) trivial (by simp) i hi _ _ rfl

example : bsonCustomImport counter (.one 3) (bdoc (.scalar (.bin 0x80 (natText 17)))) = .ok (.one 17) := by
  have := (C115_bson counter (.one 17) ⟨_, rfl, rfl⟩).2 ⟨trivial, trivial, by decide +kernel⟩ (counter_undoes 17) (.one 3) [] trivial
  rwa [List.append_nil] at this

example (rest : Bytes) (i : IStr) (hi : Stands (bdoc (.scalar (.bin 0x80 b!"17")) ++ rest) i) : ∃ i', bsonStreamCustomImport counter (.one 3) i = .ok (.one 17, i') ∧ Stands rest i' :=
  C115_read_bson_stream counter (.scalar (.bin 0x80 b!"17")) ⟨trivial, trivial, by decide +kernel⟩ _ _ rfl rest i hi

example (s : Bytes) : customBson quoted (.one s) = .ok (bdoc (.scalar (.bin 0x80 ([0x22] ++ s ++ [0x22])))) :=
  (C115_bson quoted (.one s) ⟨_, rfl, by simp [quoted]⟩).1

example : yamlCustomImport counter (.vec []) (ydoc (.arr [.scalar (natText 1), .scalar (natText 20)])) = .ok (.vec [1, 20]) :=
  (C115_yaml counter (fun _ => true) (.vec [1, 20]) (fun _ _ => rfl)).2 (fun n _ => counter_undoes n) (.vec []) rfl

/-- C115 as wanted, for all texts, is false: the texts are written with escapes as in a string, but without the quotes of a string around
them, so that a class whose `operator<<` writes a JSON string makes a text that is no JSON document, and cannot be read. And `operator>>` may fail: the import
succeeds nevertheless. And after reading a number at the very end of a stream the stream is in a failed state, as if the import had not succeeded. -/
theorem C115_false :
    (∃ t, customJson quoted {} (.one b!"a") = .ok t ∧ t = b!"\\\"a\\\"" ∧ (∀ v, ¬ JDoc codePair v t) ∧ jsonCustomImport quoted true (.one []) t = throwStd ∧
      (∃ x, ScalarText codePair x (quoted.put b!"a")) ∧ Streamed.Undoes quoted b!"a") ∧
    (∃ v t, JDoc codePair v t ∧ v = .scalar (.bool true) ∧ (counter.get b!"true" 5).2 = false ∧ jsonCustomImport counter true (.one 5) t = .ok (.one 5)) ∧
    (∃ i', jsonStreamCustomImport counter true (.one 0) (IStr.ofBytes b!"5") = .ok (.one 5, i') ∧ i'.fail = true) := by
  have hth : jsonCustomImport quoted true (.one []) b!"\\\"a\\\"" = throwStd := by
    rfl
  refine ⟨⟨b!"\\\"a\\\"", rfl, rfl, ?_, hth, ⟨.str ⟨b!"a", b!"a"⟩, ?_⟩, ?_⟩, ?_, _, rfl, rfl⟩
  · intro v hd
    obtain ⟨w1, tv, w2, hw1, hw2, hv, e⟩ := hd
    obtain ⟨s1, h1, s2, h2, -⟩ := doc_presents (conv := true) hw1 hv (.of (valueEnds_ws hw2))
    rw [← e] at h1
    cases h1
    have hws : ∀ {w}, Ws w → (0x5C : Byte) ∉ w := fun hw hc => absurd (hw _ hc) (by decide)
    have hin : (0x5C : Byte) ∈ w1 ++ tv ++ w2 := by rw [← e]; decide
    simp only [List.mem_append, hws hw1, hws hw2, or_false, false_or] at hin
    cases v with
    | scalar x =>
      cases x with
      | str s =>
        obtain ⟨-, rfl⟩ := hv
        cases w1 with
        | nil => exact absurd (congrArg List.head? e) (by simp)
        | cons c w1 =>
          exact hws hw1 (by rw [show c = 0x5C from (Option.some.inj (congrArg List.head? e)).symm]; simp)
      | null => exact absurd rfl (scalar_clean codePair (x := .null) hv (by simp) _ hin).2.2
      | bool b => exact absurd rfl (scalar_clean codePair (x := .bool b) hv (by simp) _ hin).2.2
      | int a i => exact absurd rfl (scalar_clean codePair (x := .int a i) hv (by simp) _ hin).2.2
      | frac a d => exact absurd rfl (scalar_clean codePair (x := .frac a d) hv (by simp) _ hin).2.2
    | arr ts => cases h2
    | obj ms => cases h2
  · exact ⟨Samples.plain_body (s := ⟨b!"a", b!"a"⟩) (by decide), rfl⟩
  · intro old; rfl
  · have hd : JDoc codePair (.scalar (.bool true)) b!"true" := ⟨[], b!"true", [], Samples.ws_nil, Samples.ws_nil, rfl, rfl⟩
    exact ⟨_, _, hd, rfl, rfl, C115_read_json counter true _ _ hd _ _ rfl⟩

end Thors.Props
