import Verif.Proofs.Format
import Verif.Proofs.JsonSize
import Verif.Props.JsonSize
/-
C90, formatting with `std::format`.
-/
namespace Thors.Props
open Thors Spec Spec.Format StrIn

/-- C90 (partial: numbers below 2^31, and the export does not throw). For every format specification of the documented form, whatever follows
its closing brace, the replacement field becomes exactly what the exporter of the requested format writes to a stream with the requested
layout and indentations, and the rest of the format string is left for `std::format`. For YAML, what libyaml is given. -/
theorem C90_format_partial (accepts : Bytes → Bool) (env : Env) (info : BPrint.SizeInfo) (s : Bytes) (f : FForm) (l : Layout) (tab block : Nat)
    (hs : SpecText s f l tab block) (ht : tab < 2 ^ 31) (hb : block < 2 ^ 31) (rest : Bytes) (ty : Ty) (v : Val) :
    (f = .Json → ∀ text, jsonExport env { layout := l, tabSize := tab, blockSize := block } ty v = .ok text →
      Format.field accepts env info (s ++ b!"}" ++ rest) ty v = .ok (.text text, rest)) ∧
    (f = .Bson → ∀ doc, bsonExport env info [] ty v = .ok doc →
      Format.field accepts env info (s ++ b!"}" ++ rest) ty v = .ok (.text doc, rest)) ∧
    (f = .Yaml → ∀ es, yamlExport accepts env [] ty v = .ok es →
      Format.field accepts env info (s ++ b!"}" ++ rest) ty v = .ok (.events es tab block l, rest)) := by
  have e : Format.field accepts env info (s ++ b!"}" ++ rest) ty v = (do
      return (← Format.format accepts env info ⟨f, l, tab, block⟩ ty v, rest)) := by
    rw [Format.field, show s ++ b!"}" ++ rest = s ++ 0x7D :: rest by simp, Format.parse_spec hs (by omega) (by omega)]
    rfl
  rw [e]
  refine ⟨?_, ?_, ?_⟩
  · rintro rfl text h
    simp only [Format.format, Format.toInt_small ht, Format.toInt_small hb, h]
    rfl
  · rintro rfl doc h
    simp only [Format.format]
    by_cases hr : bsonRefuses ty v = true
    · rw [bsonExport, if_pos hr] at h; exact absurd h (by simp)
    · rw [if_neg hr, h]; rfl
  · rintro rfl es h
    simp only [Format.format, Format.toInt_small ht, Format.toInt_small hb, h]
    rfl

/-- Every text with a closing brace that does not begin with a specification of the documented form and a closing brace is refused with an
exception, whatever the value. -/
theorem C90_refused (accepts : Bytes → Bool) (env : Env) (info : BPrint.SizeInfo) (t : Bytes) (ht : 0x7D ∈ t)
    (hs : ¬ ∃ s f l tab block rest, SpecText s f l tab block ∧ t = s ++ b!"}" ++ rest) (ty : Ty) (v : Val) :
    Format.field accepts env info t ty v = .throw .std := by
  obtain ⟨s, r, e, a, f, l, tab, block, ha, hr⟩ := Format.parse_inv t ht
  rw [Format.field, e, Res.ok_bind]
  dsimp only
  split
  · rename_i _ rest
    exact absurd ⟨a, f, l, tab, block, rest, ha, by rw [hr, List.append_assoc]; rfl⟩ hs
  · rfl

/-- `{:J*2.3}`. -/
theorem c90_spec : SpecText b!"J*2.3" .Json .Config 2 3 :=
  .mk .json .pretty (.some (.one (.mk 2 (by decide)))) (.some (.some (.one (.mk 3 (by decide)))))

/-- A map with one vector in it. -/
def c90Map : Val := .dict [(b!"k", .list [.bool true, .bool false])]

example (accepts : Bytes → Bool) (info : BPrint.SizeInfo) :
    Format.field accepts vEnv info b!"J*2.3} and more" (.smap (.vec .bool)) c90Map =
      .ok (.text b!"\n   {\n     \"k\":\n     [true, false]\n   }", b!" and more") :=
  (C90_format_partial accepts vEnv info b!"J*2.3" _ _ _ _ c90_spec (by decide) (by decide) b!" and more" (.smap (.vec .bool)) c90Map).1 rfl _
    (by decide +kernel)

/-- A specification does not begin with a small letter. -/
theorem c90_small (s r rest : Bytes) (f : FForm) (l : Layout) (tab block : Nat) (h : SpecText s f l tab block) : 0x6A :: r ≠ s ++ b!"}" ++ rest := by
  intro e
  cases h with
  | @mk a b c d _ _ _ _ ha hb hc hd =>
    cases ha <;> try simp at e
    cases hb <;> try simp at e
    rcases Format.num_head hc with rfl | ⟨x, xs, rfl, hx⟩
    · cases hd <;> simp at e
    · simp only [List.cons_append, List.cons.injEq] at e
      rw [← e.1] at hx
      exact absurd hx (by decide)

example (accepts : Bytes → Bool) (env : Env) (info : BPrint.SizeInfo) (ty : Ty) (v : Val) : Format.field accepts env info b!"j4}" ty v = .throw .std :=
  C90_refused accepts env info b!"j4}" (by decide) (by rintro ⟨s, f, l, tab, block, rest, h, e⟩; exact c90_small _ _ _ _ _ _ _ h e) ty v

/-- C90 is false beyond the bounds of the partial theorem. (1) An indentation of 4294967297 is taken for one of 1. (2) The parser reads behind
the end of a format string without a closing brace. (3) An empty `std::optional` makes the exporter throw; `std::format` nevertheless returns,
without a document and without an error. -/
theorem C90_false (accepts : Bytes → Bool) (info : BPrint.SizeInfo) :
    (SpecText b!"*4294967297" .Json .Config 4294967297 0 ∧
      ∀ env ty v, Format.field accepts env info b!"*4294967297}" ty v = Format.field accepts env info b!"*1}" ty v) ∧
    (∀ env ty v, Format.field accepts env info b!"J*2" ty v = .ub) ∧
    (∀ env t, jsonExport env { layout := .Stream } (.opt t) .none = .throw .std ∧
      Format.field accepts env info b!"}" (.opt t) .none = .ok (.cut, [])) := by
  refine ⟨⟨?_, fun _ _ _ => rfl⟩, fun _ _ _ => rfl, fun env t => ⟨?_, ?_⟩⟩
  · have h : Dec b!"4294967297" 4294967297 := by
      have d : ∀ i : Nat, (h : i < 10) → Digit (UInt8.ofNat (0x30 + i)) i := fun i h => .mk i h
      exact .snoc (.snoc (.snoc (.snoc (.snoc (.snoc (.snoc (.snoc (.snoc (.one (d 4 (by decide))) (d 2 (by decide))) (d 9 (by decide))) (d 4 (by decide)))
        (d 9 (by decide))) (d 6 (by decide))) (d 7 (by decide))) (d 2 (by decide))) (d 9 (by decide))) (d 7 (by decide))
    exact .mk (a := []) .none .pretty (.some h) .none
  · simp [jsonExport, ser]
  · show (do return (← Format.swallow .text (jsonExport env { layout := .Stream } (.opt t) .none), []) : Res (Format.Output × Bytes)) = _
    simp [jsonExport, ser, Format.swallow]

end Thors.Props
