import Verif.Model.YamlString
import Verif.Props.Yaml
import Verif.Proofs.JsonExport
/-
C122. YAML export to a `std::string`.
-/
namespace Thors.Props
open Thors Spec

/-- What a piece and all after it add to the text. -/
private theorem put_counts (b : Nat) : ∀ (cs : List Bytes) (f : Bool) (s : StrOut), s.preFlight = true →
    yamlPutChunks b f cs s = .ok (f || !cs.isEmpty, { s with calcSize := s.calcSize + (yamlWriteChunks b f cs).length })
  | [], f, s, _ => by simp [yamlPutChunks, yamlWriteChunks]
  | c :: cs, f, s, h => by
    have ih := put_counts b cs true { s with calcSize := s.calcSize + ((yamlWriteChunk b f c).1).length } h
    simp [yamlPutChunks, yamlWriteChunks, StrOut.put, h, yamlWriteChunk] at ih ⊢
    rw [ih]
    simp [Nat.add_assoc]

private theorem put_writes (b : Nat) : ∀ (cs : List Bytes) (f : Bool) (s : StrOut) (p : Nat), s.preFlight = false → s.current = some p →
    p + (yamlWriteChunks b f cs).length ≤ s.data.length →
    ∃ data', yamlPutChunks b f cs s = .ok (f || !cs.isEmpty, { s with data := data', current := some (p + (yamlWriteChunks b f cs).length) }) ∧
      data'.length = s.data.length ∧ data'.take (p + (yamlWriteChunks b f cs).length) = s.data.take p ++ yamlWriteChunks b f cs
  | [], f, s, p, _, hc, _ => ⟨s.data, by obtain ⟨d, c, _, _, _⟩ := s; simp only at hc; subst hc; simp [yamlPutChunks, yamlWriteChunks], rfl, by simp [yamlWriteChunks]⟩
  | c :: cs, f, s, p, hp, hc, hl => by
    have hw : yamlWriteChunks b f (c :: cs) = (yamlWriteChunk b f c).1 ++ yamlWriteChunks b true cs := rfl
    rw [hw, List.length_append] at hl
    obtain ⟨d, e1, e2, e3⟩ := copy_ok hc (t := (yamlWriteChunk b f c).1) (by omega)
    obtain ⟨d', g1, g2, g3⟩ := put_writes b cs true { s with data := d, current := some (p + (yamlWriteChunk b f c).1.length) } _ hp rfl (by simp only [e2]; omega)
    refine ⟨d', ?_, g2.trans e2, ?_⟩
    · have : yamlPutChunks b f (c :: cs) s = (s.copy (yamlWriteChunk b f c).1 >>= fun s => yamlPutChunks b true cs s) := by
        simp [yamlPutChunks, StrOut.put, hp, yamlWriteChunk]
      rw [this, e1, Res.ok_bind, g1, hw]
      simp [Nat.add_assoc]
    · rw [hw, List.length_append, ← Nat.add_assoc, g3]
      simp only [e3, List.append_assoc]

private theorem put_beyond (b : Nat) : ∀ (cs : List Bytes) (f : Bool) (s : StrOut) (p : Nat), s.preFlight = false → s.current = some p →
    p ≤ s.data.length → s.data.length < p + (yamlWriteChunks b f cs).length → yamlPutChunks b f cs s = .ub
  | [], f, s, p, _, _, h, hl => by simp [yamlWriteChunks] at hl; omega
  | c :: cs, f, s, p, hp, hc, h, hl => by
    have hw : yamlWriteChunks b f (c :: cs) = (yamlWriteChunk b f c).1 ++ yamlWriteChunks b true cs := rfl
    rw [hw, List.length_append] at hl
    have : yamlPutChunks b f (c :: cs) s = (s.copy (yamlWriteChunk b f c).1 >>= fun s => yamlPutChunks b true cs s) := by
      simp [yamlPutChunks, StrOut.put, hp, yamlWriteChunk]
    rw [this]
    by_cases g : p + (yamlWriteChunk b f c).1.length ≤ s.data.length
    · obtain ⟨d, e1, e2, -⟩ := copy_ok hc (t := (yamlWriteChunk b f c).1) g
      rw [e1, Res.ok_bind]
      exact put_beyond b cs true _ _ hp rfl (by simp only [e2]; omega) (by simp only [e2]; omega)
    · unfold StrOut.copy
      rw [hc]
      simp only [if_neg g]
      rfl

private theorem reserve_length (s : StrOut) : s.reserveSize.data.length = s.calcSize := by
  simp [StrOut.reserveSize]; omega

/-- After the first line flag is set, the text has no indentation in front. -/
private theorem write_false (b : Nat) (cs : List Bytes) (h : cs ≠ []) : yamlWriteChunks b false cs = List.replicate b 0x20 ++ yamlWriteChunks b true cs := by
  cases cs with
  | nil => exact absurd rfl h
  | cons c cs => simp [yamlWriteChunks, yamlWriteChunk]

private theorem print_string (b : Nat) (est : Bool) (cs : List Bytes) (old : Bytes) :
    yamlPrintString b est cs [] old = .ok (yamlWriteChunks b (!cs.isEmpty) cs) := by
  have hlen : (yamlWriteChunks b (!cs.isEmpty) cs).length ≤ (yamlWriteChunks b false cs).length := by
    cases cs with
    | nil => simp
    | cons c cs => rw [write_false b (c :: cs) (by simp)]; simp
  unfold yamlPrintString
  simp only
  rw [put_counts b cs false _ rfl]
  simp only [Res.ok_bind, yamlPutChunks, Bool.false_or]
  obtain ⟨d, e1, e2, e3⟩ := put_writes b cs (!cs.isEmpty) (StrOut.reserveSize { (StrOut.ofString old est).preflightSize with calcSize := (StrOut.ofString old est).preflightSize.calcSize + (yamlWriteChunks b false cs).length }) 0 rfl rfl
    (by rw [reserve_length]; simp [StrOut.ofString, StrOut.preflightSize]; omega)
  rw [reserve_length] at e2
  simp only [StrOut.ofString, StrOut.preflightSize, Nat.zero_add] at e1 e2 e3 ⊢
  rw [e1]
  simp only [Res.ok_bind, StrOut.finalizePrint, StrOut.reserveSize, Bool.false_eq_true, if_false]
  rw [e3]
  simp [e2, Nat.sub_eq_zero_of_le hlen]

/-- C122, the part that holds: without a block size, for every value, every behaviour of libyaml (any text, in any
pieces), every former content of the string and both ways of counting, the string gets what a stream gets; and a value
that is not exported to the one is not exported to the other. -/
theorem C122_yaml_string_partial (libyaml : List YEv → List Bytes) (accepts : Bytes → Bool) (env : Env) (cfg : PrintCfg) (ty : Ty) (v : Val) (old : Bytes)
    (h : cfg.blockSize = 0) :
    yamlExportString libyaml accepts env cfg ty v old = yamlExportStream libyaml accepts env cfg ty v := by
  unfold yamlExportString yamlExportStream
  congr 1
  funext es
  rw [print_string, h, Int.toNat_zero]
  cases hc : libyaml es with
  | nil => rfl
  | cons c cs => rw [write_false 0 (c :: cs) (by simp)]; simp

/-- non-vacuity: the document `--- x`, `...` in two pieces, over a string that was longer and one that was shorter. -/
example (env : Env) : yamlExportString (fun _ => [b!"--- x\n", b!"...\n"]) (fun _ => true) env { layout := .Stream } .str (.str b!"x") b!"something that was here before" = .ok b!"--- x\n...\n" ∧
    yamlExportString (fun _ => [b!"--- x\n", b!"...\n"]) (fun _ => true) env { layout := .Stream } .str (.str b!"x") [] = .ok b!"--- x\n...\n" := by
  constructor <;> rfl

/-- C122, with any block size: the string is the text of the stream without the indentation of its first line. Nothing
is written outside the string. -/
theorem C122_first_line (libyaml : List YEv → List Bytes) (accepts : Bytes → Bool) (env : Env) (cfg : PrintCfg) (ty : Ty) (v : Val) (old text : Bytes)
    (n : Nat) (hn : cfg.blockSize = n) (hs : yamlExportStream libyaml accepts env cfg ty v = .ok text) :
    yamlExportString libyaml accepts env cfg ty v old = .ok (text.drop n) := by
  unfold yamlExportStream at hs
  obtain ⟨es, e1, e2⟩ := Res.bind_eq_ok.1 hs
  simp only [Res.pure_eq, Res.ok.injEq, hn, Int.toNat_natCast] at e2
  unfold yamlExportString
  simp only [hn, Int.toNat_natCast]
  rw [e1, Res.ok_bind, print_string, ← e2]
  cases hc : libyaml es with
  | nil => simp [yamlWriteChunks]
  | cons c cs => rw [write_false _ (c :: cs) (by simp)]; simp

/-- non-vacuity: block size 4. -/
example (env : Env) : yamlExportStream (fun _ => [b!"--- x\n", b!"...\n"]) (fun _ => true) env { layout := .Stream, blockSize := 4 } .str (.str b!"x") = .ok b!"    --- x\n    ...\n    " ∧
    yamlExportString (fun _ => [b!"--- x\n", b!"...\n"]) (fun _ => true) env { layout := .Stream, blockSize := 4 } .str (.str b!"x") [] = .ok b!"--- x\n    ...\n    " := by
  constructor <;> rfl

/-- C122 in full is false: with a block size, whatever the value and whatever libyaml writes (unless it writes nothing),
the string and the stream differ. -/
theorem C122_false (libyaml : List YEv → List Bytes) (accepts : Bytes → Bool) (env : Env) (cfg : PrintCfg) (ty : Ty) (v : Val) (old text : Bytes)
    (hb : 0 < cfg.blockSize) (hs : yamlExportStream libyaml accepts env cfg ty v = .ok text) (ht : text ≠ []) :
    yamlExportString libyaml accepts env cfg ty v old ≠ yamlExportStream libyaml accepts env cfg ty v := by
  obtain ⟨n, hn⟩ := Int.eq_ofNat_of_zero_le (Int.le_of_lt hb)
  rw [C122_first_line libyaml accepts env cfg ty v old text n hn hs, hs]
  intro e
  have := congrArg List.length (Res.ok.inj e)
  have : 0 < text.length := List.length_pos_iff.2 ht
  simp at *
  omega

/-- non-vacuity: the export above. -/
example (env : Env) : yamlExportString (fun _ => [b!"--- x\n"]) (fun _ => true) env { layout := .Stream, blockSize := 1 } .str (.str b!"x") [] ≠
    yamlExportStream (fun _ => [b!"--- x\n"]) (fun _ => true) env { layout := .Stream, blockSize := 1 } .str (.str b!"x") :=
  C122_false _ _ _ _ _ _ _ b!" --- x\n " (by decide) rfl (by decide)

/-- C122, what it rests on: libyaml must write nothing when the stream is ended. If it wrote anything then (as it may,
to close an open ended scalar), the printer would write outside the string, for every document and every string. -/
theorem C122_stream_end (est : Bool) (chunks tail : List Bytes) (old : Bytes) (h : tail.flatten ≠ []) :
    yamlPrintString 0 est chunks tail old = .ub := by
  have hlen : ∀ f cs, yamlWriteChunks 0 f cs = yamlWriteChunks 0 false cs := by
    intro f cs
    cases cs with
    | nil => rfl
    | cons c cs => cases f <;> rfl
  have ht : 0 < (yamlWriteChunks 0 false tail).length := by
    rw [C58_output_chunks 0 tail (by rintro rfl; exact h rfl)]
    have : indented 0 tail.flatten = tail.flatten := by
      simp only [indented, List.replicate_zero, List.nil_append]
      generalize tail.flatten = t
      induction t with
      | nil => rfl
      | cons c cs ih => rw [List.flatMap_cons, ih]; split <;> simp_all
    rw [this]
    exact List.length_pos_iff.2 h
  unfold yamlPrintString
  simp only
  rw [put_counts 0 chunks false _ rfl]
  simp only [Res.ok_bind, Bool.false_or, StrOut.ofString, StrOut.preflightSize, Nat.zero_add]
  generalize hs : StrOut.reserveSize _ = s
  have hl : s.data.length = (yamlWriteChunks 0 false chunks).length := by rw [← hs, reserve_length]
  have hp : s.preFlight = false := by rw [← hs]; rfl
  have hc : s.current = some 0 := by rw [← hs]; rfl
  by_cases g : (yamlWriteChunks 0 false tail).length ≤ s.data.length
  · obtain ⟨d, e1, e2, -⟩ := put_writes 0 tail (!chunks.isEmpty) s 0 hp hc (by rw [hlen]; omega)
    rw [e1]
    simp only [Res.ok_bind]
    rw [put_beyond 0 chunks _ ⟨d, some (0 + (yamlWriteChunks 0 (!chunks.isEmpty) tail).length), s.calcSize, s.preFlight, s.estimate⟩ _ hp rfl
      (by simp only [e2]; rw [hlen]; omega) (by simp only [e2]; rw [hlen, hlen _ chunks]; omega)]
    rfl
  · rw [put_beyond 0 tail _ s 0 hp hc (Nat.zero_le _) (by rw [hlen]; omega)]
    rfl

/-- non-vacuity: the mark `...` at the end of the stream. -/
example : yamlPrintString 0 true [b!"--- x\n"] [b!"...\n"] b!"old" = .ub := by rfl

end Thors.Props
