import Verif.Props.Export
import Verif.Proofs.JsonSize
/-
C88: `jsonStreanSize` is the length of the compact text. C89: the compact layout has no white space.
-/
namespace Thors.Props
open Thors Spec StrIn

/-! ### C89 -/

/-- C89. In the `Stream` layout the text consists of tokens without anything between them, and these are the tokens that every other
layout puts white space around. -/
theorem C89_stream_layout_is_dense (env : Env) (marker : Bytes) (ty : Ty) (v : Val) (d : Doc) (hd : docOf env marker ty v = .ok d) :
    ∃ tokens, (∀ t ∈ tokens, IsToken t) ∧
      (∀ cfg : PrintCfg, cfg.marker = marker → cfg.layout = .Stream → jsonExport env cfg ty v = .ok tokens.flatten) ∧
      ∀ cfg : PrintCfg, cfg.marker = marker → FitsIndent cfg (nesting d) →
        ∃ text, jsonExport env cfg ty v = .ok text ∧ Laid tokens text := by
  refine ⟨toks streamText d, toks_tokens streamText_token d, fun cfg hm hl => ?_, fun cfg hm hf => ?_⟩
  · exact export_stream env cfg hl ty v d (by rw [hm]; exact hd)
  · subst hm
    obtain ⟨w, tv, ws, ss, hw, ht, -, -, e⟩ := export_doc env cfg ty v d hd hf
    refine ⟨_, e, Laid.ws hw ?_⟩
    have := ptext_laid d tv ht [] [] (.nil ws_nil)
    simpa using this

example : ∃ tokens : List Bytes, (∀ t ∈ tokens, IsToken t) ∧ jsonExport Samples.env { layout := .Stream } (.named 1) samplePoint = .ok tokens.flatten := by
  obtain ⟨t, h1, h2, -⟩ := C89_stream_layout_is_dense Samples.env [] (.named 1) samplePoint samplePointDoc samplePoint_doc
  exact ⟨t, h1, h2 _ rfl rfl⟩

/-! ### C88 -/

/-- C88 (restricted to: values for which the size computation looks at the same things as the printer (`JSizeKnown`: in particular no
maps with elements and no pairs); integers below a bound up to which `std::log10` of the platform gives the number of digits, other
than the least `int` or `long`; strings without characters that are escaped; floating point values whose shortest text is as long as
their text on a stream). -/
theorem C88_stream_size_partial (lg : Flt → Nat) (sh : FKind → Flt → Bytes) (bound : Nat)
    (hlg : ∀ n : Nat, 0 < n → n < bound → lg (intFlt f64 n) = (natText n).length)
    (env : Env) (info : BPrint.SizeInfo) (ty : Ty) (v : Val) (d : Doc)
    (hd : docOf env [] ty v = .ok d) (hk : JSizeKnown env info true ty v) (ha : AllScalars (sizedAtom bound sh) d) :
    ∃ text, jsonExport env { layout := .Stream } ty v = .ok text ∧ jsonStreamSize lg sh env info ty v = .ok text.length :=
  ⟨_, export_stream env { layout := .Stream } rfl ty v d hd, jsize_doc lg sh env [] info bound hlg v true ty d hd hk ha⟩

/-- No class is virtual or a pair. -/
def plainInfo : BPrint.SizeInfo := ⟨fun _ => false, fun _ => false⟩

example (lg : Flt → Nat) (sh : FKind → Flt → Bytes) (h : ∀ n : Nat, 0 < n → n < 100 → lg (intFlt f64 n) = (natText n).length) :
    ∃ text, jsonExport Samples.env { layout := .Stream } (.named 1) samplePoint = .ok text ∧
      jsonStreamSize lg sh Samples.env plainInfo (.named 1) samplePoint = .ok text.length :=
  C88_stream_size_partial lg sh 100 h Samples.env plainInfo (.named 1) samplePoint samplePointDoc samplePoint_doc
    (by simp [samplePoint, JSizeKnown, Samples.env, plainInfo, JSizeKnownOwn, JSizeKnownParents, JSizeKnownList, Samples.int32])
    (by simp [samplePointDoc, AllScalars, AllScalars.members, AllScalars.elems, sizedAtom])

/-- A function that is right below 1000 (so the hypothesis can be met). -/
example : ∀ n : Nat, 0 < n → n < 1000 → (fun | .fin _ m E => (natText (m * 2 ^ E / 2 ^ 1074)).length | _ => 0 : Flt → Nat) (intFlt f64 n) = (natText n).length := by
  have h : ∀ n, n < 1000 → (match intFlt f64 (n : Nat) with | .fin _ m E => m * 2 ^ E / 2 ^ 1074 | _ => 0) = n := by decide +kernel
  intro n _ hn
  have := h n hn
  revert this
  cases intFlt f64 n <;> simp only <;> intro h <;> first | (rw [h]; done) | omega

theorem size_digit (lg : Flt → Nat) (n : Nat) (h : n ≠ 0) : JSize.sizeDigits lg n = lg (intFlt f64 n) := by
  simp [JSize.sizeDigits, h]

/-- C88 is false. (1) The quotes of the keys of a map are not counted. (2) Characters that are escaped are counted as one.
(3) The size of the least `int` is undefined behaviour. (4) A negative zero is written with a sign that is not counted. (5) A `long`
of 18 digits that becomes `1e18` when converted to `double` counts as 19 digits. -/
theorem C88_values_false (lg : Flt → Nat) (sh : FKind → Flt → Bytes) (env : Env) (info : BPrint.SizeInfo) (hl : lg (intFlt f64 1) = 1)
    (h18 : lg (intFlt f64 (10 ^ 18)) = 19) :
    (jsonStreamSize lg sh env info (.smap Samples.int32) (oneKey b!"k") = .ok 5 ∧
      jsonExport env { layout := .Stream } (.smap Samples.int32) (oneKey b!"k") = .ok b!"{\"k\":1}") ∧
    (jsonStreamSize lg sh env info .str (.str b!"\n") = .ok 3 ∧ jsonExport env { layout := .Stream } .str (.str b!"\n") = .ok b!"\"\\n\"") ∧
    (jsonStreamSize lg sh env info Samples.int32 (.int (-2147483648)) = .ub) ∧
    (jsonStreamSize lg sh env info (.flt f64) (.flt (.fin true 0 0)) = .ok 3 ∧
      jsonExport env { layout := .Stream } (.flt f64) (.flt (.fin true 0 0)) = .ok b!"-0.0") ∧
    (jsonStreamSize lg sh env info (.int ⟨64, true⟩) (.int 999999999999999999) = .ok 19 ∧
      jsonExport env { layout := .Stream } (.int ⟨64, true⟩) (.int 999999999999999999) = .ok b!"999999999999999999") := by
  have h1 : natText 1 = b!"1" := by rw [natText_decimal]; decide +kernel
  have h2 : natText 999999999999999999 = b!"999999999999999999" := by rw [natText_decimal]; decide +kernel
  refine ⟨⟨?_, ?_⟩, ⟨?_, ?_⟩, ?_, ⟨?_, ?_⟩, ⟨?_, ?_⟩⟩
  · show (do return JSize.sizeMap 1 + (← (do
        let a ← JSize.sizeInt lg ⟨32, true⟩ 1
        let b ← Res.ok 0
        return (b!"k").length + a + b : Res Nat)) : Res Nat) = _
    rw [show JSize.sizeInt lg ⟨32, true⟩ 1 = .ok (lg (intFlt f64 1) + 0) from rfl, hl]
    rfl
  · rw [export_stream env _ rfl _ _ _ (oneKey_doc env [] b!"k")]
    simp [toks, toks.members, atomText, intText, h1]
  · rfl
  · rw [export_stream env _ rfl _ _ (.scalar (.str b!"\n")) rfl]
    decide +kernel
  · rfl
  · rfl
  · rw [export_stream env _ rfl _ _ (.scalar (.flt f64 (.fin true 0 0))) rfl]
    rfl
  · show JSize.sizeInt lg ⟨64, true⟩ 999999999999999999 = _
    rw [show JSize.sizeInt lg ⟨64, true⟩ 999999999999999999 = .ok (lg (intFlt f64 999999999999999999) + 0) from rfl,
      show intFlt f64 999999999999999999 = intFlt f64 (10 ^ 18) by decide +kernel, h18]
  · rw [export_stream env _ rfl _ _ (.scalar (.int ⟨64, true⟩ 999999999999999999)) rfl]
    simp [toks, atomText, intText, h2]

/-- One class, `struct Base { bool b; }` with the virtual functions. -/
def vEnv : Env where
  defs
    | 0 => .cls ⟨.mk [] [⟨b!"b", b!"b", .bool⟩] none, b!"Base", none⟩
    | _ => .enum []
  dflt _ := .obj [] [.bool false]
  registry := []
  derives _ _ := false

/-- C88 is false for an object of a class with virtual functions and without a type field name: the class name is counted, but not
written. -/
theorem C88_virtual_false (lg : Flt → Nat) (sh : FKind → Flt → Bytes) :
    jsonStreamSize lg sh vEnv ⟨fun _ => true, fun _ => false⟩ (.named 0) (.obj [] [.bool true]) = .ok 26 ∧
      jsonExport vEnv { layout := .Stream } (.named 0) (.obj [] [.bool true]) = .ok b!"{\"b\":true}" ∧ (b!"{\"b\":true}").length = 10 :=
  ⟨rfl, by rw [export_stream vEnv _ rfl _ _ (.obj [(b!"b", .scalar (.bool true))]) (by simp [docOf, docOwn, docParents, shown, vEnv])]; rfl, rfl⟩

/-- C88 is false for a `std::pair`: the quotes of its keys are not counted. -/
theorem C88_pair_false (lg : Flt → Nat) (sh : FKind → Flt → Bytes) :
    let env : Env := { vEnv with defs := fun _ => .cls ⟨.mk [] [⟨b!"first", b!"first", .bool⟩, ⟨b!"second", b!"second", .bool⟩] none, b!"pair", none⟩ }
    jsonStreamSize lg sh env ⟨fun _ => false, fun _ => true⟩ (.named 0) (.obj [] [.bool true, .bool true]) = .ok 24 ∧
      jsonExport env { layout := .Stream } (.named 0) (.obj [] [.bool true, .bool true]) = .ok b!"{\"first\":true,\"second\":true}" ∧
      (b!"{\"first\":true,\"second\":true}").length = 28 :=
  ⟨rfl, by
    rw [export_stream _ _ rfl _ _ (.obj [(b!"first", .scalar (.bool true)), (b!"second", .scalar (.bool true))]) (by simp [docOf, docOwn, docParents, shown])]; rfl, rfl⟩

end Thors.Props
