import Verif.Props.Float
import Verif.Props.Bson
import Verif.Props.Stream
import Verif.Props.Yaml
/-
Floating point values in documents. C62 for whole documents; C67: BSON round trip; C68: numbers of BSON read into floating point
types; C69: YAML numbers; C70: numbers read from streams. (C66, floating point values exported to a `std::string`, is in Export.lean.)
-/
namespace Thors.Props
open Thors Spec StrIn BPrint

/-- No number with `prec` significant bits is nearer to the fraction `n / d` than `m * 2^E / 2^q` (everything multiplied by
`2^q` and `d`). -/
def NearestTo (f : FKind) (n d m E : Nat) : Prop :=
  Canon f m E ∧ ∀ m' E', m' < 2 ^ f.prec → dist (m * 2 ^ E * d) (n * 2 ^ f.q) ≤ dist (m' * 2 ^ E' * d) (n * 2 ^ f.q)

theorem nearestTo (f : FKind) (hp : 0 < f.prec) {n d : Nat} (hd : 0 < d) :
    NearestTo f n d (nearest f (n * 2 ^ f.q) d).1 (nearest f (n * 2 ^ f.q) d).2 :=
  ⟨nearest_canon f hp hd, fun m' E' h => nearest_best f hp hd m' E' h⟩

/-! ### C62 for documents -/

/-- C62 for whole documents: a JSON document (white space around it allowed) that is a number in the range of the type is imported
as the nearest value of the type. -/
theorem C62_import_nearest_partial (env : Env) (cfg : Cfg) (conv : Bool) (f : FKind) (w t w' : Bytes) (x : Decimal) (old : Val) (hf : f ∈ [f32, f64, f80])
    (h : JsonNumber t x) (hw : Ws w) (hw' : Ws w') (hr : FltRange f x) :
    ∃ m E, jsonImport env cfg conv (.flt f) old (w ++ t ++ w') = .ok (.flt (.fin x.neg m E)) ∧ Nearest f x m E ∧ E ≤ f.emax := by
  have hp0 : 0 < f.prec := by have := prec_pos hf; omega
  obtain ⟨v, hv⟩ := toFlt_range hp0 hr.1 hr.2
  obtain ⟨rfl, h2, _⟩ := toFlt_some hv
  obtain ⟨h3, h4, -⟩ := fltScalar_spec codePair h
  have hi : imp (jsem conv) env cfg (.scalar (fltScalar t)) (.flt f) old = .ok (.flt (.fin x.neg (x.round f).1 (x.round f).2)) := by
    simp [imp, impScalar, jsem, h4, hv]
  have := jsonImport_doc env cfg (conv := conv) (v := .scalar (fltScalar t)) ⟨w, t, w', hw, hw', h3, rfl⟩ (.flt f) old (.inr (by rw [hi]; simp))
  rw [hi] at this
  exact ⟨_, _, this, round_nearest f hp0 x, h2⟩

example (env : Env) (cfg : Cfg) : ∃ m E, jsonImport env cfg true (.flt f64) (.flt (.nan false)) (b!" " ++ b!"-12.5e3" ++ b!"\n") = .ok (.flt (.fin true m E)) ∧
    Nearest f64 ⟨true, 125, 2⟩ m E ∧ E ≤ f64.emax :=
  C62_import_nearest_partial env cfg true f64 b!" " b!"-12.5e3" b!"\n" ⟨true, 125, 2⟩ _ (by decide) sampleNumber (by simp [Ws]) (by simp [Ws])
    ⟨by decide +kernel, by decide +kernel⟩

/-! ### C67 -/

/-- The full statement of C67: every value of a floating point type is exported to BSON as a `double` element with the IEEE 754
encoding of that value, least significant byte first, and importing the bytes into that type gives the value again. -/
def C67_full (env : Env) (info : SizeInfo) (mk : Bytes) (cfg : Cfg) : Prop :=
  ∀ (f : FKind) (x : Flt) (old : Val), f ∈ [f32, f64, f80] → IsFlt f x → ∃ bytes, bsonExport env info mk (.flt f) (.flt x) = .ok bytes ∧
    bsonImport env cfg (.flt f) old bytes = .ok (.flt x)

theorem flt_storable (f : FKind) (x : Flt) : Storable32 (.scalar (bscalar (.flt f x))) :=
  ⟨trivial, by simp [AllScalars, bscalar, BScalar.valid, Fixed.width, le_length], by simp [bscalar, bdoc, framed_length, BScalar.payload, le_length]⟩

theorem flt_export (env : Env) (info : SizeInfo) (mk : Bytes) (f : FKind) (x : Flt) :
    bsonExport env info mk (.flt f) (.flt x) = .ok (bdoc (.scalar (bscalar (.flt f x)))) :=
  bsonExport_doc env info mk (.flt f) (.flt x) (.scalar (.flt f x)) (by simp [docOf]) (by simp [SizeKnown]) (by simp [AllScalars, plainAtom]) (by simp [TopLevel])

theorem flt_import (env : Env) (cfg : Cfg) (f g : FKind) (x : Flt) (old : Val) (rest : Bytes) :
    bsonImport env cfg (.flt g) old (bdoc (.scalar (bscalar (.flt f x))) ++ rest) = .ok (.flt (castFlt f64 g (castFlt f f64 x))) := by
  rw [bsonImport_doc env cfg _ (flt_storable f x) rest _ rfl]
  simp [imp, impScalar, bsem, bscalar, payloadDouble_le (castFlt_value (f := f) (g := f64) (by decide) x)]

/-- C67 for `float` and `double`: the element has type 1, and its eight bytes are, least significant first, the binary64 encoding `n` of a
`double` `y` that is the same value; importing it gives the value, infinities and NaN included (for NaN: a NaN of the same
sign; payloads are not modelled). -/
theorem C67_float_double_partial (env : Env) (info : SizeInfo) (mk : Bytes) (cfg : Cfg) (f : FKind) (x : Flt) (hf : f = f32 ∨ f = f64) (hx : IsFlt f x)
    (old : Val) (rest : Bytes) :
    ∃ (n : Nat) (y : Flt), Binary64 n y ∧ n < 2 ^ 64 ∧
      (∀ neg m E, x = .fin neg m E → ∃ m' E', y = .fin neg m' E' ∧ m' * 2 ^ E' * 2 ^ f.q = m * 2 ^ E * 2 ^ f64.q) ∧ (¬ finite x → y = x) ∧
      bsonExport env info mk (.flt f) (.flt x) = .ok (framed ([0x01, 0x30, 0x00] ++ le 8 n)) ∧
      bsonImport env cfg (.flt f) old (framed ([0x01, 0x30, 0x00] ++ le 8 n) ++ rest) = .ok (.flt x) := by
  have hwd : Widens f f64 := by
    rcases hf with rfl | rfl
    · exact widens_32_64
    · exact widens_refl (by decide)
  have hy := castFlt_value (f := f) (g := f64) (by decide) x
  have hb : bdoc (.scalar (bscalar (.flt f x))) = framed ([0x01, 0x30, 0x00] ++ le 8 (doubleBits (castFlt f f64 x) : Nat)) := by
    simp [bdoc, bscalar, BScalar.code, BScalar.payload, Fixed.code]
  refine ⟨doubleBits (castFlt f f64 x), castFlt f f64 x, doubleBits_binary64 hy, doubleBits_lt hy, ?_, ?_, ?_, ?_⟩
  · rintro neg m E rfl
    obtain ⟨m', E', h1, -, h3⟩ := widen_fin hwd hx
    refine ⟨m', E', h1, ?_⟩
    rw [h3, Nat.mul_assoc _ (2 ^ _) (2 ^ f.q), ← Nat.pow_add]
    congr 2
    rcases hf with rfl | rfl <;> decide
  · intro h
    cases x with
    | fin neg m E => exact absurd trivial h
    | _ => rfl
  · rw [flt_export, hb]
  · rw [← hb, flt_import, cast_back hwd hx]

/-- non-vacuity: the smallest positive `float`. -/
example (env : Env) (info : SizeInfo) (cfg : Cfg) : ∃ n y, Binary64 n y ∧ n < 2 ^ 64 ∧
      (∀ neg m E, Flt.fin false 1 0 = .fin neg m E → ∃ m' E', y = .fin neg m' E' ∧ m' * 2 ^ E' * 2 ^ f32.q = m * 2 ^ E * 2 ^ f64.q) ∧ (¬ finite (.fin false 1 0) → y = .fin false 1 0) ∧
      bsonExport env info [] (.flt f32) (.flt (.fin false 1 0)) = .ok (framed ([0x01, 0x30, 0x00] ++ le 8 n)) ∧
      bsonImport env cfg (.flt f32) (.flt (.inf true)) (framed ([0x01, 0x30, 0x00] ++ le 8 n) ++ b!"more") = .ok (.flt (.fin false 1 0)) :=
  C67_float_double_partial env info [] cfg f32 (.fin false 1 0) (.inl rfl) (by decide) _ _

/-- C67 is false for `long double`: 1 + 2^-63 is stored as the double 1, and comes back as 1; 2^1024 comes back as infinity. -/
theorem C67_false (env : Env) (info : SizeInfo) (mk : Bytes) (cfg : Cfg) :
    ¬ C67_full env info mk cfg ∧
    (∃ bytes, bsonExport env info mk (.flt f80) (.flt (.fin false (2 ^ 63 + 1) 16382)) = .ok bytes ∧
      ∀ old, bsonImport env cfg (.flt f80) old bytes = .ok (.flt (.fin false (2 ^ 63) 16382))) ∧
    (∃ bytes, bsonExport env info mk (.flt f80) (.flt (.fin false (2 ^ 63) 17406)) = .ok bytes ∧
      ∀ old, bsonImport env cfg (.flt f80) old bytes = .ok (.flt (.inf false))) := by
  have e1 : castFlt f64 f80 (castFlt f80 f64 (.fin false (2 ^ 63 + 1) 16382)) = .fin false (2 ^ 63) 16382 := by decide +kernel
  have e2 : castFlt f64 f80 (castFlt f80 f64 (.fin false (2 ^ 63) 17406)) = .inf false := by decide +kernel
  have g1 : ∀ old, bsonImport env cfg (.flt f80) old (bdoc (.scalar (bscalar (.flt f80 (.fin false (2 ^ 63 + 1) 16382))))) = .ok (.flt (.fin false (2 ^ 63) 16382)) := by
    intro old
    have := flt_import env cfg f80 f80 (.fin false (2 ^ 63 + 1) 16382) old []
    rwa [List.append_nil, e1] at this
  refine ⟨fun h => ?_, ⟨_, flt_export env info mk _ _, g1⟩, ⟨_, flt_export env info mk _ _, fun old => ?_⟩⟩
  · obtain ⟨bytes, h1, h2⟩ := h f80 (.fin false (2 ^ 63 + 1) 16382) .null (by decide) (by decide)
    rw [flt_export] at h1
    cases h1
    rw [g1] at h2
    cases h2
  · have := flt_import env cfg f80 f80 (.fin false (2 ^ 63) 17406) old []
    rwa [List.append_nil, e2] at this

/-! ### C68 -/

theorem double_storable {p : Bytes} (h : p.length = 8) : Storable32 (.scalar (.fixed .double p)) :=
  ⟨trivial, by simp [AllScalars, BScalar.valid, Fixed.width, h], by simp [bdoc, framed_length, BScalar.payload, h]⟩

/-- C68, integers: a stored int32 or int64 is read into a floating point type as the nearest value of the type. -/
theorem C68_integers (env : Env) (cfg : Cfg) (f : FKind) (hf : f ∈ [f32, f64, f80]) (v : Int) (old : Val) (rest : Bytes) :
    ((-2 ^ 31 ≤ v ∧ v < 2 ^ 31) → ∃ m E, bsonImport env cfg (.flt f) old (bdoc (.scalar (.int32 v)) ++ rest) = .ok (.flt (.fin (v < 0) m E)) ∧ NearestTo f v.natAbs 1 m E) ∧
    ((-2 ^ 63 ≤ v ∧ v < 2 ^ 63) → ∃ m E, bsonImport env cfg (.flt f) old (bdoc (.scalar (.int64 v)) ++ rest) = .ok (.flt (.fin (v < 0) m E)) ∧ NearestTo f v.natAbs 1 m E) := by
  have hp : 0 < f.prec := by have := prec_pos hf; omega
  constructor
  · intro h
    refine ⟨_, _, ?_, nearestTo f hp (by decide)⟩
    rw [bsonImport_doc env cfg _ (int32_storable h) rest _ rfl]
    simp [imp, impScalar, bsem, intFlt]
  · intro h
    refine ⟨_, _, ?_, nearestTo f hp (by decide)⟩
    rw [bsonImport_doc env cfg _ (int64_storable h) rest _ rfl]
    simp [imp, impScalar, bsem, intFlt]

/-- C68, doubles: the eight bytes of a `double` element, least significant first, are the binary64 encoding of some `y`. Read into any
floating point type: a finite `y` is read as the nearest value of that type, or infinity if the nearest one is too large; an
infinity and a NaN as themselves. -/
theorem C68_doubles (env : Env) (cfg : Cfg) (f : FKind) (hf : f ∈ [f32, f64, f80]) (p : Bytes) (hp : p.length = 8) (y : Flt) (hy : Binary64 (unle p) y)
    (old : Val) (rest : Bytes) :
    ∃ z, bsonImport env cfg (.flt f) old (bdoc (.scalar (.fixed .double p)) ++ rest) = .ok (.flt z) ∧
      (¬ finite y → z = y) ∧
      ∀ neg m E, y = .fin neg m E → ∃ m' E', NearestTo f (m * 2 ^ E) (2 ^ f64.q) m' E' ∧ z = if E' ≤ f.emax then .fin neg m' E' else .inf neg := by
  have hp0 : 0 < f.prec := by have := prec_pos hf; omega
  refine ⟨castFlt f64 f y, ?_, ?_, ?_⟩
  · rw [bsonImport_doc env cfg _ (double_storable hp) rest _ rfl]
    simp [imp, impScalar, bsem, payloadDouble, bitsDouble_binary64 hy]
  · intro h
    cases y with
    | fin neg m E => exact absurd trivial h
    | _ => rfl
  · rintro neg m E rfl
    refine ⟨_, _, nearestTo f hp0 (pow_pos2 _), ?_⟩
    simp only [castFlt]
    split
    · rw [if_neg (by omega)]
    · rw [if_pos (by omega)]

/-- C68, other elements: rejected. -/
theorem C68_others_rejected (env : Env) (cfg : Cfg) (f : FKind) (x : BScalar) (h : Storable32 (.scalar x)) (h1 : ∀ v, x ≠ .int32 v) (h2 : ∀ v, x ≠ .int64 v)
    (h3 : ∀ p, x ≠ .fixed .double p) (old : Val) (rest : Bytes) : bsonImport env cfg (.flt f) old (bdoc (.scalar x) ++ rest) = .throw .std := by
  rw [bsonImport_doc env cfg _ h rest _ rfl]
  cases x with
  | int32 v => exact absurd rfl (h1 v)
  | int64 v => exact absurd rfl (h2 v)
  | fixed t p =>
    cases t with
    | double => exact absurd rfl (h3 p)
    | _ => rfl
  | _ => rfl

/-- non-vacuity: the bytes of the double -1.5 read into a `float`; a date is rejected. -/
example : Binary64 (unle [0, 0, 0, 0, 0, 0, 0xF8, 0xBF]) (.fin true (3 * 2 ^ 51) 1022) := ⟨true, 1023, 2 ^ 51, by decide, by decide, by decide, by decide⟩
example : Storable32 (.scalar (.fixed .utcDateTime [0, 0, 0, 0, 0, 0, 0, 0])) := ⟨trivial, by simp [AllScalars, BScalar.valid, Fixed.width], by decide +kernel⟩

/-! ### C69 -/

/-- The full statement of C69: a YAML scalar that is a number is read as the nearest value of the floating point type, or an error is
reported. -/
def C69_full (env : Env) (cfg : Cfg) : Prop :=
  ∀ (f : FKind) (t : Bytes) (x : Decimal) (old : Val), f ∈ [f32, f64, f80] → JsonNumber t x →
    (∃ m E, yamlImport env cfg (.flt f) old (ydoc (.scalar t)) = .ok (.flt (.fin x.neg m E)) ∧ Nearest f x m E ∧ E ≤ f.emax) ∨
    ∃ e, yamlImport env cfg (.flt f) old (ydoc (.scalar t)) = .throw e

theorem yamlFlt (env : Env) (cfg : Cfg) (f : FKind) (t : Bytes) (x : Decimal) (h : JsonNumber t x) (old : Val) (es : List YEv) :
    yamlImport env cfg (.flt f) old ([.streamStart, .docStart] ++ [.scalar t] ++ .docEnd :: es) = .ok (.flt (x.toFltInf f)) := by
  have := yamlImport_doc env cfg (.scalar t) es (.flt f) old
  exact this.trans (by simp [imp, impScalar, ysem, scanTextFlt_number f h])

/-- C69, for numbers not larger than the largest value of the type: the nearest value, quietly zero for very small ones. -/
theorem C69_yaml_nearest_partial (env : Env) (cfg : Cfg) (f : FKind) (t : Bytes) (x : Decimal) (old : Val) (es : List YEv) (hf : f ∈ [f32, f64, f80])
    (h : JsonNumber t x) (hr : decNum f x ≤ (2 ^ f.prec - 1) * 2 ^ f.emax * decDen x) :
    ∃ m E, yamlImport env cfg (.flt f) old ([.streamStart, .docStart] ++ [.scalar t] ++ .docEnd :: es) = .ok (.flt (.fin x.neg m E)) ∧ Nearest f x m E ∧ E ≤ f.emax := by
  have hp0 : 0 < f.prec := by have := prec_pos hf; omega
  have he := round_range hp0 hr
  refine ⟨_, _, ?_, round_nearest f hp0 x, he⟩
  rw [yamlFlt env cfg f t x h]
  unfold Decimal.toFltInf
  simp only
  rw [if_neg (by omega)]

/-- C69: larger numbers become infinity, without an error. -/
theorem C69_false (env : Env) (cfg : Cfg) :
    ¬ C69_full env cfg ∧ ∀ old, yamlImport env cfg (.flt f64) old (ydoc (.scalar b!"1e400")) = .ok (.flt (.inf false)) := by
  have e : ∀ old, yamlImport env cfg (.flt f64) old (ydoc (.scalar b!"1e400")) = .ok (.flt (.inf false)) := by
    intro old
    have := yamlFlt env cfg f64 b!"1e400" _ hugeNumber old [.streamEnd]
    rwa [show Decimal.toFltInf f64 ⟨false, 1, 400⟩ = .inf false by decide +kernel] at this
  refine ⟨fun h => ?_, e⟩
  rcases h f64 b!"1e400" _ .null (by decide) hugeNumber with ⟨m, E, h, -⟩ | ⟨_, h⟩
  · rw [e] at h; cases h
  · rw [e] at h; cases h

/-- non-vacuity of C69 -/
example (env : Env) (cfg : Cfg) : ∃ m E, yamlImport env cfg (.flt f32) (.flt (.nan false)) [.streamStart, .docStart, .scalar b!"-12.5e3", .docEnd] = .ok (.flt (.fin true m E)) ∧
    Nearest f32 ⟨true, 125, 2⟩ m E ∧ E ≤ f32.emax :=
  C69_yaml_nearest_partial env cfg f32 b!"-12.5e3" ⟨true, 125, 2⟩ _ [] (by decide) sampleNumber (by decide +kernel)

/-! ### C70 -/

/-- The full statement of C70: a JSON number read from a stream becomes the nearest value of the type, or an error is reported. -/
def C70_full (env : Env) (cfg : Cfg) (conv : Bool) : Prop :=
  ∀ (f : FKind) (t : Bytes) (x : Decimal) (old : Val) (i : IStr), f ∈ [f32, f64, f80] → JsonNumber t x → Ready i t →
    (∃ m E i', jsonStreamImport env cfg conv (.flt f) old i = .ok (.flt (.fin x.neg m E), i') ∧ Nearest f x m E ∧ E ≤ f.emax) ∨
    ∃ e, jsonStreamImport env cfg conv (.flt f) old i = .throw e

theorem streamImportFlt (env : Env) (cfg : Cfg) (conv : Bool) (f : FKind) (w t post : Bytes) (x : Decimal) (old : Val) (i : IStr)
    (h : JsonNumber t x) (hw : Ws w) (hp : valueEnds post) (hi : Ready i (w ++ t ++ post)) :
    ∃ i', jsonStreamImport env cfg conv (.flt f) old i = .ok (.flt (streamFlt f x), i') ∧ Behind i' post := by
  obtain ⟨h3, h4, -⟩ := fltScalar_spec codePair h
  have he : Ends (.scalar (fltScalar t)) post := by
    cases fltScalar t <;> first | exact hp | trivial
  obtain ⟨i', e, h2⟩ := jsonStreamImport_doc env cfg (conv := conv) (v := .scalar (fltScalar t)) hw (h3) he hi.oks (.flt f) old (.flt (streamFlt f x))
    (by simp [imp, impScalar, jssem, h4])
  exact ⟨i', e, behind_of h2⟩

/-- C70, for numbers not larger than the largest value of the type: the nearest value, quietly zero for very small ones; the stream
is left right behind the number. -/
theorem C70_stream_nearest_partial (env : Env) (cfg : Cfg) (conv : Bool) (f : FKind) (w t post : Bytes) (x : Decimal) (old : Val) (i : IStr) (hf : f ∈ [f32, f64, f80])
    (h : JsonNumber t x) (hw : Ws w) (hp : valueEnds post) (hi : Ready i (w ++ t ++ post)) (hr : decNum f x ≤ (2 ^ f.prec - 1) * 2 ^ f.emax * decDen x) :
    ∃ m E i', jsonStreamImport env cfg conv (.flt f) old i = .ok (.flt (.fin x.neg m E), i') ∧ Nearest f x m E ∧ E ≤ f.emax ∧ Behind i' post := by
  have hp0 : 0 < f.prec := by have := prec_pos hf; omega
  have he := round_range hp0 hr
  obtain ⟨i', e, h2⟩ := streamImportFlt env cfg conv f w t post x old i h hw hp hi
  rw [streamFlt, if_neg (by omega)] at e
  exact ⟨_, _, i', e, round_nearest f hp0 x, he, h2⟩

/-- non-vacuity of C70 -/
example (env : Env) (cfg : Cfg) : ∃ m E i', jsonStreamImport env cfg true (.flt f32) (.flt (.nan false)) (IStr.ofBytes b!"  -12.5e3, 5") = .ok (.flt (.fin true m E), i') ∧
    Nearest f32 ⟨true, 125, 2⟩ m E ∧ E ≤ f32.emax ∧ Behind i' b!", 5" :=
  C70_stream_nearest_partial env cfg true f32 b!"  " b!"-12.5e3" b!", 5" ⟨true, 125, 2⟩ _ _ (by decide) sampleNumber (by simp [Ws]) (by decide)
    ⟨⟨rfl, rfl⟩, rfl, by decide, rfl⟩ (by decide +kernel)

/-- C70: a number that is too large becomes the largest value of the type, without an error. The string reader leaves the
destination indeterminate (C62). -/
theorem C70_false (env : Env) (cfg : Cfg) (conv : Bool) :
    ¬ C70_full env cfg conv ∧ ∀ old, ∃ i', jsonStreamImport env cfg conv (.flt f64) old (IStr.ofBytes b!"1e400") = .ok (.flt (.fin false (2 ^ 53 - 1) f64.emax), i') := by
  have e : ∀ old, ∃ i', jsonStreamImport env cfg conv (.flt f64) old (IStr.ofBytes b!"1e400") = .ok (.flt (.fin false (2 ^ 53 - 1) f64.emax), i') := by
    intro old
    obtain ⟨i', e, -⟩ := streamImportFlt env cfg conv f64 [] b!"1e400" [] _ old (IStr.ofBytes b!"1e400") hugeNumber (by simp [Ws]) (by simp [valueEnds]) ⟨⟨rfl, rfl⟩, rfl, by decide, rfl⟩
    rw [show streamFlt f64 ⟨false, 1, 400⟩ = .fin false (2 ^ 53 - 1) f64.emax by decide +kernel] at e
    exact ⟨i', e⟩
  refine ⟨fun h => ?_, e⟩
  obtain ⟨i', e'⟩ := e .null
  rcases h f64 b!"1e400" _ .null (IStr.ofBytes b!"1e400") (by decide) hugeNumber ⟨⟨rfl, rfl⟩, rfl, by decide, rfl⟩ with ⟨m, E, i2, h, hn, -⟩ | ⟨_, h⟩
  · rw [e'] at h
    cases h
    have := hn.2 1 2402 (by decide)
    exact absurd this (by decide +kernel)
  · rw [e'] at h; cases h

end Thors.Props
