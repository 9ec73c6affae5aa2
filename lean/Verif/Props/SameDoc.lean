import Verif.Proofs.JsonBson
import Verif.Proofs.JsonImport
import Verif.Proofs.BsonStreamDoc
import Verif.Props.Samples
import Verif.Props.FloatDoc
/-
C102: documents that say the same in JSON and in BSON are imported as the same value.
-/
namespace Thors.Props
open Thors Thors.Spec StrIn

/-- C102. `v` is a JSON document with text `t`, `u` a BSON document that says the same (`Spec/SameDoc.lean`). The floating point
types of the program are all `double`, or no number of the document has a fraction. Whatever the import of the JSON text
returns, the import of the BSON document returns too, whatever follows it. (Missing: fractions read into `float` and `long double`,
see `C102_false`. Not the reverse either: BSON integers are cut off to the wanted width, C31.) -/
theorem C102_string_partial (env : Env) (cfg : Cfg) (conv : Bool) (v : JTree) (u : BTree) (t rest : Bytes) (ty : Ty) (old x : Val)
    (hd : JDoc codePair v t) (hu : SameDoc conv v u) (hst : Storable32 u) (hb : bsonBase env ty = BsonP.rootKind u)
    (hf : (env.ints usual (· = f64) ∧ ty.ints usual (· = f64)) ∨ (env.ints usual ∧ ty.ints usual ∧ WholeNumbers v))
    (hs : cfg.strict = .Weak → v.skippable (jsem conv) = true)
    (h : jsonImport env cfg conv ty old t = .ok x) :
    bsonImport env cfg ty old (bdoc u ++ rest) = .ok x := by
  rw [jsonImport_doc env cfg hd ty old (.inl hs)] at h
  rw [bsonImport_doc env cfg u hst rest ty hb]
  rcases hf with ⟨he, ht⟩ | ⟨he, ht, hw⟩
  · exact json_bson_imp env cfg conv (· = f64) True (fun _ _ h => h) hu (.inl trivial) he ht h
  · exact json_bson_imp env cfg conv (fun _ => True) False (fun h => h.elim) hu (.inr hw) he ht h

/-- C102, the BSON document on a stream: the same value, and the stream stands right behind the document. -/
theorem C102_stream_partial (env : Env) (cfg : Cfg) (conv : Bool) (v : JTree) (u : BTree) (t rest : Bytes) (ty : Ty) (old x : Val)
    (hd : JDoc codePair v t) (hu : SameDoc conv v u) (hst : Storable32 u) (hb : bsonBase env ty = BsonP.rootKind u)
    (hf : (env.ints usual (· = f64) ∧ ty.ints usual (· = f64)) ∨ (env.ints usual ∧ ty.ints usual ∧ WholeNumbers v))
    (hs : cfg.strict = .Weak → v.skippable (jsem conv) = true)
    (h : jsonImport env cfg conv ty old t = .ok x) (i : IStr) (hi : Stands (bdoc u ++ rest) i) :
    ∃ i', bsonStreamImport env cfg ty old i = .ok (x, i') ∧ Stands rest i' := by
  have h2 := C102_string_partial env cfg conv v u t rest ty old x hd hu hst hb hf hs h
  rw [bsonImport_doc env cfg u hst rest ty hb] at h2
  rcases bson_stream_doc env cfg u hst rest ty hb old hi with ⟨w, i', h1, h3, h4⟩ | ⟨e, h1, -⟩ | ⟨h1, -⟩
  · rw [h2] at h1
    cases h1
    exact ⟨i', h3, h4⟩
  · rw [h2] at h1; cases h1
  · rw [h2] at h1; cases h1

/-- The document of the examples: `{"a":[1,2]}`, in BSON with one int32 and one int64. -/
def json102 : JTree := .obj [(Samples.jstr b!"a", .arr [Samples.num 1, Samples.num 2])]
/-- The same in BSON. -/
def bson102 : BTree := .obj [(b!"a", .arr [.scalar (.int32 1), .scalar (.int64 2)])]

theorem same102 : SameDoc true json102 bson102 := by
  simp [SameDoc, SameDoc.members, SameDoc.elems, SameScalar, json102, bson102, Samples.num, Samples.jstr, JStr.val]

theorem storable102 : Storable32 bson102 :=
  ⟨by simp [AllKeys, AllKeys.elems, AllKeys.members, bson102], by simp [AllScalars, AllScalars.elems, AllScalars.members, BScalar.valid, bson102], by decide +kernel⟩

theorem import102 (env : Env) (cfg : Cfg) : jsonImport env cfg true (.smap (.vec (.flt f32))) (.dict []) b!"{\"a\":[1,2]}" =
    .ok (.dict [(b!"a", .list [.flt (.fin false (2 ^ 23) 126), .flt (.fin false (2 ^ 23) 127)])]) := by
  rw [Samples.import_plain json102 (by decide) (t := b!"{\"a\":[1,2]}") rfl _ _ _ _ _ (by decide)]
  have h1 : Decimal.toFlt f32 ⟨false, 1, 0⟩ = some (.fin false (2 ^ 23) 126) := by decide +kernel
  have h2 : Decimal.toFlt f32 ⟨false, 2, 0⟩ = some (.fin false (2 ^ 23) 127) := by decide +kernel
  simp [json102, imp, imp.elems, imp.members, impArr, impVec, SeqKind.insert, impObj, impDict, impScalar, jsem, JScalar.number, Samples.num, Samples.jstr, Ty.default,
    dictGet, dictSet, JStr.val, h1, h2]

/-- non-vacuity of C102: floats that are whole numbers. -/
example (env : Env) (he : env.ints usual) (cfg : Cfg) (rest : Bytes) :
    bsonImport env cfg (.smap (.vec (.flt f32))) (.dict []) (bdoc bson102 ++ rest) =
      .ok (.dict [(b!"a", .list [.flt (.fin false (2 ^ 23) 126), .flt (.fin false (2 ^ 23) 127)])]) :=
  C102_string_partial env cfg true json102 bson102 b!"{\"a\":[1,2]}" rest _ _ _ (Samples.plain_doc json102 (by decide)) same102 storable102 rfl
    (.inr ⟨he, trivial, by simp [WholeNumbers, WholeNumbers.members, WholeNumbers.elems, json102, Samples.num]⟩) (fun _ => by decide) (import102 env cfg)

/-- C102 for `float` is false: the number 1.00000005960464478 is a little more than the middle between two floats. JSON rounds once and
gives the upper one. BSON has the nearest double, which is that middle, and rounding it again gives the lower one. -/
theorem C102_false (env : Env) (cfg : Cfg) (old : Val) :
    let x : Decimal := ⟨false, 100000005960464478, -17⟩
    let p : Bytes := [0x00, 0x00, 0x00, 0x10, 0x00, 0x00, 0xF0, 0x3F]
    SameDoc true (.scalar (.frac b!"1.00000005960464478" x)) (.scalar (.fixed .double p)) ∧
    jsonImport env cfg true (.flt f32) old b!"1.00000005960464478" = .ok (.flt (.fin false (2 ^ 23 + 1) 126)) ∧
    bsonImport env cfg (.flt f32) old (bdoc (.scalar (.fixed .double p))) = .ok (.flt (.fin false (2 ^ 23) 126)) := by
  intro x p
  have hx : JsonNumber b!"1.00000005960464478" x :=
    ⟨[], b!"1", b!".00000005960464478", [], 1, 17, 5960464478, 0, rfl, dec_iff.2 ⟨by decide, by decide, rfl⟩, by simp [leadingZero],
      .inr ⟨b!"00000005960464478", rfl, dec_iff.2 ⟨by decide, by decide, rfl⟩, rfl⟩, .inl ⟨rfl, rfl⟩, rfl, rfl, rfl⟩
  refine ⟨?_, ?_, ?_⟩
  · show x.toFlt f64 = some (payloadDouble p)
    decide +kernel
  · obtain ⟨h3, h4, -⟩ := fltScalar_spec codePair hx
    have h5 : x.toFlt f32 = some (.fin false (2 ^ 23 + 1) 126) := by decide +kernel
    have hi : imp (jsem true) env cfg (.scalar (fltScalar b!"1.00000005960464478")) (.flt f32) old = .ok (.flt (.fin false (2 ^ 23 + 1) 126)) := by
      simp only [imp, impScalar, jsem, h4, h5]
      rfl
    have := jsonImport_doc env cfg (conv := true) (v := .scalar (fltScalar b!"1.00000005960464478")) (t := b!"1.00000005960464478")
      ⟨[], b!"1.00000005960464478", [], by simp [Ws], by simp [Ws], h3, rfl⟩ (.flt f32) old (.inr (by rw [hi]; simp))
    rw [this, hi]
  · have := bsonImport_doc env cfg _ (double_storable (p := p) rfl) [] (.flt f32) rfl old
    rw [List.append_nil] at this
    rw [this]
    have h2 : castFlt f64 f32 (payloadDouble p) = .fin false (2 ^ 23) 126 := by decide +kernel
    simp [imp, impScalar, bsem, h2]

end Thors.Props
