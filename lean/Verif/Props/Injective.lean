import Verif.Props.Reexport
/-
C105: different objects have different exports.
-/
namespace Thors.Props
open Thors Thors.Spec StrIn

/-- C105. Two objects of one type, exported with any two settings (layout, indentation, …): if the texts are the same, so are the objects. For keys without
characters that have to be escaped and floating point values of six digits. -/
theorem C105_json_partial (env : Env) (mk : Bytes) (hS : SolidTypes env mk) (hg : GoodTypes env) (ty : Ty) (hty : Solid env mk false ty) (v w : Val)
    (hv : HasType env ty v) (hw : HasType env ty w) (p q : PrintCfg) (hp : p.marker = mk) (hq : q.marker = mk)
    (ha : ∀ x d, x = v ∨ x = w → Spec.docOf env mk ty x = .ok d → AllKeys cleanKey d ∧ AllScalars sixAtom d ∧ FitsIndent p (nesting d) ∧ FitsIndent q (nesting d))
    (h : jsonExport env p ty v = jsonExport env q ty w) : v = w := by
  obtain ⟨hs1, d1, hd1⟩ := back_val env mk hg hS v ty false hty (by simp) hv
  obtain ⟨hs2, d2, hd2⟩ := back_val env mk hg hS w ty false hty (by simp) hw
  obtain ⟨a1, a2, a3, -⟩ := ha v d1 (.inl rfl) hd1
  obtain ⟨b1, b2, -, b4⟩ := ha w d2 (.inr rfl) hd2
  obtain ⟨t1, p1, e1, i1, -⟩ := C23_round_trip_partial env p ⟨.Weak, mk⟩ ty v (ty.default env) d1 [] hg hS.filters hp.symm (by simp) (hp ▸ hd1) (hp ▸ hs1) (default_fresh env hg ty) a1 a2 a3
    ⟨fun _ _ _ => trivial, fun _ _ _ => trivial⟩
  obtain ⟨t2, p2, e2, i2, -⟩ := C23_round_trip_partial env q ⟨.Weak, mk⟩ ty w (ty.default env) d2 [] hg hS.filters hq.symm (by simp) (hq ▸ hd2) (hq ▸ hs2) (default_fresh env hg ty) b1 b2 b4
    ⟨fun _ _ _ => trivial, fun _ _ _ => trivial⟩
  rw [e1, e2] at h
  cases h
  rw [i1] at i2
  exact congrArg Prod.fst (Res.ok_inj i2)

/-- C105, BSON. -/
theorem C105_bson_partial (env : Env) (info : BPrint.SizeInfo) (mk : Bytes) (hS : SolidTypes env mk) (hg : GoodTypes env) (ty : Ty) (hty : Solid env mk false ty) (v w : Val)
    (hv : HasType env ty v) (hw : HasType env ty w)
    (ha : ∀ x d, x = v ∨ x = w → Spec.docOf env mk ty x = .ok d → SizeKnown env info false ty x ∧ TopLevel env ty x ∧ AllKeys (fun k => (0x00 : Byte) ∉ k) d ∧
      AllScalars plainAtom d ∧ AllScalars doubleAtom d ∧ (bdoc (btree d)).length < 2 ^ 31)
    (h : bsonExport env info mk ty v = bsonExport env info mk ty w) : v = w := by
  obtain ⟨hs1, d1, hd1⟩ := back_val env mk hg hS v ty false hty (by simp) hv
  obtain ⟨hs2, d2, hd2⟩ := back_val env mk hg hS w ty false hty (by simp) hw
  obtain ⟨a1, a2, a3, a4, a5, a6⟩ := ha v d1 (.inl rfl) hd1
  obtain ⟨b1, b2, b3, b4, b5, b6⟩ := ha w d2 (.inr rfl) hd2
  obtain ⟨t1, p1, e1, i1, -⟩ := C27_round_trip_partial env info mk ⟨.Weak, mk⟩ ty v (ty.default env) d1 [] hg hS.filters rfl (by simp) hd1 hs1 (default_fresh env hg ty) a1 a2 a3 a4 a5 a6
  obtain ⟨t2, p2, e2, i2, -⟩ := C27_round_trip_partial env info mk ⟨.Weak, mk⟩ ty w (ty.default env) d2 [] hg hS.filters rfl (by simp) hd2 hs2 (default_fresh env hg ty) b1 b2 b3 b4 b5 b6
  rw [e1, e2] at h
  cases h
  rw [i1] at i2
  exact congrArg Prod.fst (Res.ok_inj i2)

/-- C105, YAML: by the events of the document. -/
theorem C105_yaml_partial (accepts : Bytes → Bool) (env : Env) (mk : Bytes) (hS : SolidTypes env mk) (hg : GoodTypes env) (ty : Ty) (hty : Solid env mk false ty) (v w : Val)
    (hv : HasType env ty v) (hw : HasType env ty w)
    (ha : ∀ x d, x = v ∨ x = w → Spec.docOf env mk ty x = .ok d → AllKeys (fun k => accepts k = true) d ∧ AllScalars (fun a => accepts (yatom a) = true) d ∧ AllScalars yamlScalar d)
    (h : yamlExport accepts env mk ty v = yamlExport accepts env mk ty w) : v = w := by
  obtain ⟨hs1, d1, hd1⟩ := back_val env mk hg hS v ty false hty (by simp) hv
  obtain ⟨hs2, d2, hd2⟩ := back_val env mk hg hS w ty false hty (by simp) hw
  obtain ⟨a1, a2, a3⟩ := ha v d1 (.inl rfl) hd1
  obtain ⟨b1, b2, b3⟩ := ha w d2 (.inr rfl) hd2
  obtain ⟨t1, e1, -, i1⟩ := C55_yaml_round_trip_partial accepts env mk ⟨.Weak, mk⟩ ty v (ty.default env) d1 hg hS.filters rfl (by simp) hd1 hs1 (default_fresh env hg ty) a1 a2 a3
  obtain ⟨t2, e2, -, i2⟩ := C55_yaml_round_trip_partial accepts env mk ⟨.Weak, mk⟩ ty w (ty.default env) d2 hg hS.filters rfl (by simp) hd2 hs2 (default_fresh env hg ty) b1 b2 b3
  rw [e1, e2] at h
  cases h
  rw [i1] at i2
  exact Res.ok_inj i2

/-- non-vacuity: the vectors `{0, 1}` and `{0, 2}` have different exports, in whatever layout. -/
example (p q : PrintCfg) (hp : p.marker = []) (hq : q.marker = []) (hl : p.layout = .Stream) (hl' : q.layout = .Stream) :
    jsonExport env104 p (.vec Samples.int32) (.list [.int 0, .int 1]) ≠ jsonExport env104 q (.vec Samples.int32) (.list [.int 0, .int 2]) := by
  intro h
  have := C105_json_partial env104 [] env104_solid env104_good (.vec Samples.int32) (by simp [Ty.vec, Solid, WeakOrder, Samples.int32]) _ _
    (by simp [Ty.vec, HasType, HaveType, InSeqOrder, Samples.int32, InRange]) (by simp [Ty.vec, HasType, HaveType, InSeqOrder, Samples.int32, InRange]) p q hp hq
    (by
      rintro x d (rfl | rfl) hd <;>
      · simp [Spec.docOf, docList, Ty.vec, Samples.int32] at hd
        subst hd
        simp [AllKeys, AllKeys.elems, AllScalars, AllScalars.elems, sixAtom, FitsIndent, hl, hl']) h
  simp at this
example : bsonExport env104 bInfo [] (.vec Samples.int32) (.list [.int 0, .int 1]) ≠ bsonExport env104 bInfo [] (.vec Samples.int32) (.list [.int 0, .int 2]) := by
  intro h
  have := C105_bson_partial env104 bInfo [] env104_solid env104_good (.vec Samples.int32) (by simp [Ty.vec, Solid, WeakOrder, Samples.int32]) _ _
    (by simp [Ty.vec, HasType, HaveType, InSeqOrder, Samples.int32, InRange]) (by simp [Ty.vec, HasType, HaveType, InSeqOrder, Samples.int32, InRange])
    (by
      rintro x d (rfl | rfl) hd <;>
      · simp [Spec.docOf, docList, Ty.vec, Samples.int32] at hd
        subst hd
        refine ⟨by simp [Ty.vec, SizeKnown, SizeKnownList, Samples.int32], by simp [Ty.vec, TopLevel], by simp [AllKeys, AllKeys.elems], by simp [AllScalars, AllScalars.elems, plainAtom],
          by simp [AllScalars, AllScalars.elems, doubleAtom], by decide +kernel⟩) h
  simp at this
example : yamlExport (fun _ => true) env104 [] (.vec Samples.int32) (.list [.int 0, .int 1]) ≠ yamlExport (fun _ => true) env104 [] (.vec Samples.int32) (.list [.int 0, .int 2]) := by
  intro h
  have := C105_yaml_partial (fun _ => true) env104 [] env104_solid env104_good (.vec Samples.int32) (by simp [Ty.vec, Solid, WeakOrder, Samples.int32]) _ _
    (by simp [Ty.vec, HasType, HaveType, InSeqOrder, Samples.int32, InRange]) (by simp [Ty.vec, HasType, HaveType, InSeqOrder, Samples.int32, InRange])
    (by
      rintro x d (rfl | rfl) hd <;>
      · simp [Spec.docOf, docList, Ty.vec, Samples.int32] at hd
        subst hd
        simp [AllKeys, AllKeys.elems, AllScalars, AllScalars.elems, yamlScalar]) h
  simp at this

/-- C105 is false for keys: the map with the one key `a":true,"b` and the map with the two keys `a` and `b` have the same JSON text. In YAML a pointer to the
string `null` and a null pointer have the same document. -/
theorem C105_false (env : Env) :
    jsonExport env { layout := .Stream } (.smap .bool) (.dict [(b!"a\":true,\"b", .bool true)]) =
      jsonExport env { layout := .Stream } (.smap .bool) (.dict [(b!"a", .bool true), (b!"b", .bool true)]) ∧
    yamlExport (fun _ => true) env [] (.uptr .str) (.ptr (.str b!"null")) = yamlExport (fun _ => true) env [] (.uptr .str) .null := by
  refine ⟨?_, rfl⟩
  rfl

end Thors.Props
