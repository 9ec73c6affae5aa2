import Verif.Props.RoundTrip
import Verif.Props.JsonDoc
import Verif.Proofs.JsonYaml
/-
YAML. C44: tokens. C55: round trip. C56: what is never accepted. C57: integers. C58: libyaml's chunks.
C59: JSON and YAML documents with the same content.
-/
namespace Thors.Props
open Thors Spec StrIn

/-- C44. For every value `v`, of any depth, libyaml's events for the document make the YAML reader announce
document start, then the tokens of `v` with the texts of keys and scalars, then document end. -/
theorem C44_yaml_tokens (v : YTree) :
    ∃ s1 s2 s3, (YamlP.ofEvents (ydoc v)).getNextToken = .ok (.DocStart, s1) ∧ YSees s1 ((treeToks v).zip (texts v)) s2 ∧
      s2.getNextToken = .ok (.DocEnd, s3) ∧ (treeToks v).length = (texts v).length := by
  obtain ⟨hz, hl⟩ := ytoks_zip v
  obtain ⟨s2, h, h1, h2, h3, h4⟩ := yaml_sees v .Open 1 [] [.docEnd, .streamEnd]
    ⟨yevents v ++ [.docEnd, .streamEnd], [(.Open, 1)], false, false, .docStart⟩ (by simp [yVal]) ⟨rfl, rfl, rfl, rfl⟩
  rw [hz] at h
  exact ⟨_, s2, _, rfl, h, (y_next ⟨h1, h2, h3, h4⟩).trans rfl, hl⟩

/-- C44, compared with JSON: for every JSON document `t` with tree `v`, the JSON reader of the text and the YAML
reader of the events of the same value give the same tokens. -/
theorem C44_same_tokens_as_json (v : JTree) (t : Bytes) (conv : Bool) (h : JDoc codePair v t) :
    ∃ es xs j1 j2 j3 y1 y2 y3,
      (JsonP.ofBytes t conv).getNextToken = .ok (.DocStart, j1) ∧ Sees j1 es j2 ∧ j2.getNextToken = .ok (.DocEnd, j3) ∧
      (YamlP.ofEvents (ydoc (asYaml conv v))).getNextToken = .ok (.DocStart, y1) ∧ YSees y1 xs y2 ∧ y2.getNextToken = .ok (.DocEnd, y3) ∧
      es.map JEv.tok = xs.map Prod.fst := by
  obtain ⟨j1, j2, j3, h1, h2, h3⟩ := C12_document_events v t conv h
  obtain ⟨y1, y2, y3, h4, h5, h6, h7⟩ := C44_yaml_tokens (asYaml conv v)
  refine ⟨_, _, j1, j2, j3, y1, y2, y3, h1, h2, h3, h4, h5, h6, ?_⟩
  rw [jevents_toks, List.map_fst_zip (by omega), asYaml_toks]

/-- non-vacuity: `{"a": [1, {}], "b": "x"}`. -/
example : (treeToks (.obj [(b!"a", .arr [.scalar b!"1", .obj []]), (b!"b", .scalar b!"x")] : YTree)).zip
      (texts (.obj [(b!"a", .arr [.scalar b!"1", .obj []]), (b!"b", .scalar b!"x")])) =
    [(.MapStart, none), (.Key, some b!"a"), (.ArrayStart, none), (.Value, some b!"1"), (.MapStart, none), (.MapEnd, none),
     (.ArrayEnd, none), (.Key, some b!"b"), (.Value, some b!"x"), (.MapEnd, none)] := rfl

/-- Scalars that survive YAML: integers of at most 64 bits, floating point values that six significant digits describe, infinity and
NaN, strings other than `null` and `~`. -/
def yamlScalar : Atom → Prop
  | .int k _ => 0 < k.bits ∧ k.bits ≤ 64
  | .flt f x => Six f x ∨ ¬ finite x
  | .str s => s ≠ b!"null" ∧ s ≠ b!"~"
  | _ => True

/-- C55, for documents without the strings `null` and `~` (as values) and without floating point values that need more than six digits. Every value of every type that can be
represented and brought back at all, all of whose texts libyaml accepts, is exported to the events of its document;
importing these events into a fresh object gives the value. -/
theorem C55_yaml_round_trip_partial (accepts : Bytes → Bool) (env : Env) (marker : Bytes) (cfg : Cfg) (ty : Ty) (v old : Val) (d : Doc)
    (hg : GoodTypes env) (hnf : ∀ i c, env.defs i = .cls c → NoFilter c.traits)
    (hm : cfg.marker = marker) (hx : cfg.strict = .Exact → ExactTypes env)
    (hd : docOf env marker ty v = .ok d) (hs : Storable env marker ty v) (ho : Fresh env ty old)
    (hk : AllKeys (fun k => accepts k = true) d) (ha : AllScalars (fun a => accepts (yatom a) = true) d) (hy : AllScalars yamlScalar d) :
    ∃ es, yamlExport accepts env marker ty v = .ok es ∧ es = ydoc (ytree d) ∧ yamlImport env cfg ty old es = .ok v := by
  have hy' : AllScalars yOk d := by
    have : yOk = yamlScalar := by funext a; cases a <;> rfl
    rw [this]; exact hy
  obtain ⟨h1, h2⟩ := yaml_round_trip accepts env marker cfg ty v old d hg hm hx hd hs ho hk ha hy'
  rw [restored_val env marker hg hnf v ty old hs ho] at h2
  exact ⟨_, h1, rfl, h2⟩

/-- non-vacuity of C55: the sample of C23, with everything accepted. -/
example : ∃ es, yamlExport (fun _ => true) rtEnv [] (.named 1) node = .ok es ∧ es = ydoc (ytree nodeDoc) ∧
    yamlImport rtEnv ⟨.Strict, []⟩ (.named 1) (rtEnv.dflt 1) es = .ok node :=
  C55_yaml_round_trip_partial _ rtEnv [] ⟨.Strict, []⟩ (.named 1) node (rtEnv.dflt 1) nodeDoc rtEnv_good rtEnv_noFilter rfl (by simp) node_doc
    node_storable (rtEnv_good.fresh 1) (by simp [nodeDoc, leafDoc, AllKeys, AllKeys.members, AllKeys.elems])
    (by simp [nodeDoc, leafDoc, AllScalars, AllScalars.members, AllScalars.elems])
    (by simp [nodeDoc, leafDoc, AllScalars, AllScalars.members, AllScalars.elems, yamlScalar])

/-- C55 without the restriction is false: a `std::unique_ptr<std::string>` to the string `null` comes back as a
null pointer (the printer emits the text in any style, and the reader compares the text, not the style). -/
theorem C55_false (env : Env) (cfg : Cfg) :
    ∃ es, yamlExport (fun _ => true) env [] (.uptr .str) (.ptr (.str b!"null")) = .ok es ∧
      yamlImport env cfg (.uptr .str) .null es = .ok .null ∧ Storable env [] (.uptr .str) (.ptr (.str b!"null")) := by
  refine ⟨_, rfl, ?_, by simp [Storable, nullable]⟩
  have := yamlImport_doc env cfg (.scalar b!"null") [.streamEnd] (.uptr .str) .null
  exact this.trans (by simp [imp, impScalar, ysem])

/-- C56. libyaml reports the events of one document, possibly with aliases and with keys that are not scalars; or it
reports some of them and then fails (`es` is any prefix of what a well-formed stream would give). If the import
succeeds, the document was complete and has neither aliases nor such keys; the result is then the specified one. -/
theorem C56_only_complete_plain_documents (env : Env) (cfg : Cfg) (ty : Ty) (old x : Val) (nd : YNode) (rest es : List YEv)
    (hp : es <+: [.streamStart, .docStart] ++ nodeEvents nd ++ .docEnd :: rest) (h : yamlImport env cfg ty old es = .ok x) :
    ∃ v rest', nd = ynode v ∧ es = [.streamStart, .docStart] ++ nodeEvents nd ++ .docEnd :: rest' ∧ imp ysem env cfg v ty old = .ok x := by
  obtain ⟨v, rest', rfl, rfl⟩ := yaml_accepted env cfg ty old x nd rest es hp h
  rw [yamlImport_doc] at h
  exact ⟨v, rest', rfl, by rw [ynode_events], h⟩

/-- non-vacuity of C56: `- true` is accepted as a `std::vector<bool>`; -/
example (env : Env) (cfg : Cfg) : yamlImport env cfg (.vec .bool) (.list []) ([.streamStart, .docStart] ++ nodeEvents (.seq [.scalar b!"true"]) ++ [.docEnd]) =
    .ok (.list [.bool true]) :=
  (yamlImport_doc env cfg (.arr [.scalar b!"true"]) [] (.vec .bool) (.list [])).trans
    (by simp [imp, imp.elems, impArr, impVec, impScalar, ysem, SeqKind.insert])
/-- … the same with an alias in it, or cut off, is not. -/
example (env : Env) (cfg : Cfg) (x : Val) :
    yamlImport env cfg (.vec .bool) (.list []) ([.streamStart, .docStart] ++ nodeEvents (.seq [.scalar b!"true", .alias]) ++ [.docEnd]) ≠ .ok x ∧
    yamlImport env cfg (.vec .bool) (.list []) ([.streamStart, .docStart, .seqStart, .scalar b!"true", .seqEnd]) ≠ .ok x := by
  constructor
  · intro h
    obtain ⟨v, rest', hv, -⟩ := C56_only_complete_plain_documents env cfg _ _ x (.seq [.scalar b!"true", .alias]) [] _ (List.prefix_refl _) h
    cases v with
    | arr vs =>
      simp only [ynode, YNode.seq.injEq] at hv
      match vs, hv with
      | [_], hv => simp [ynode.elems] at hv
      | _ :: .scalar _ :: _, hv => simp [ynode.elems, ynode] at hv
      | _ :: .arr _ :: _, hv => simp [ynode.elems, ynode] at hv
      | _ :: .obj _ :: _, hv => simp [ynode.elems, ynode] at hv
    | _ => simp [ynode] at hv
  · intro h
    obtain ⟨v, rest', -, he, -⟩ := C56_only_complete_plain_documents env cfg _ _ x (.seq [.scalar b!"true"]) [] _ ⟨[.docEnd], rfl⟩ h
    simp [nodeEvents, nodeEvents.elems] at he

/-- C57, for numbers that fit: every decimal spelling of an integer that the type can hold is read as that integer. -/
theorem C57_yaml_integers_partial (env : Env) (cfg : Cfg) (k : IntKind) (t : Bytes) (i : Int) (old : Val) (es : List YEv)
    (hb : 0 < k.bits ∧ k.bits ≤ 64) (ht : IntLit t i) (hf : InRange k i) :
    yamlImport env cfg (.int k) old ([.streamStart, .docStart] ++ [.scalar t] ++ .docEnd :: es) = .ok (.int i) := by
  have := yamlImport_doc env cfg (.scalar t) es (.int k) old
  exact this.trans (by simp [imp, impScalar, ysem, scanText_lit hb.1 hb.2 ht (fits_iff.2 hf)])

/-- non-vacuity: `-12`. -/
example (env : Env) (cfg : Cfg) : yamlImport env cfg (.int ⟨16, true⟩) (.int 0) [.streamStart, .docStart, .scalar b!"-12", .docEnd] = .ok (.int (-12)) :=
  C57_yaml_integers_partial env cfg ⟨16, true⟩ b!"-12" (-12) (.int 0) [] (by decide) (.neg (.snoc (t := [0x31]) (.one (.mk 1 (by decide))) (.mk 2 (by decide)))) (by decide)

theorem yamlInt (env : Env) (cfg : Cfg) (k : IntKind) (t : Bytes) (old : Val) (i : Int) (h : YamlP.scanText k t = .ok i) :
    yamlImport env cfg (.int k) old (ydoc (.scalar t)) = .ok (.int i) := by
  have := yamlImport_doc env cfg (.scalar t) [.streamEnd] (.int k) old
  exact this.trans (by simp [imp, impScalar, ysem, h])

/-- C57 in full is false: numbers out of range are not refused. 300 becomes 44 in an `unsigned char`-sized type and
70000 becomes 4464 in an `unsigned short`; 2^63 becomes 2^63-1 in a `long`; -1 becomes 2^64-1 in an `unsigned long`;
and a scalar that is not a number at all, the empty one, is read as 0. -/
theorem C57_false (env : Env) (cfg : Cfg) (old : Val) :
    yamlImport env cfg (.int ⟨8, false⟩) old (ydoc (.scalar b!"300")) = .ok (.int 44) ∧
    yamlImport env cfg (.int ⟨16, false⟩) old (ydoc (.scalar b!"70000")) = .ok (.int 4464) ∧
    yamlImport env cfg (.int ⟨64, true⟩) old (ydoc (.scalar b!"9223372036854775808")) = .ok (.int 9223372036854775807) ∧
    yamlImport env cfg (.int ⟨64, false⟩) old (ydoc (.scalar b!"-1")) = .ok (.int 18446744073709551615) ∧
    yamlImport env cfg (.int ⟨32, true⟩) old (ydoc (.scalar [])) = .ok (.int 0) :=
  ⟨yamlInt env cfg _ _ old _ (by decide), yamlInt env cfg _ _ old _ (by decide), yamlInt env cfg _ _ old _ (by decide +kernel),
   yamlInt env cfg _ _ old _ (by decide +kernel), yamlInt env cfg _ _ old _ (by decide)⟩

/-- C57, the other half that does hold: a text that is neither empty nor an (optionally signed, possibly preceded by
white space) run of digits up to its end is refused by every integer type. -/
theorem C57_not_a_number (env : Env) (cfg : Cfg) (k : IntKind) (t : Bytes) (old x : Val) (es : List YEv)
    (h : yamlImport env cfg (.int k) old ([.streamStart, .docStart] ++ [.scalar t] ++ .docEnd :: es) = .ok x) :
    t = [] ∨ ∃ sp sg ds n, t = sp ++ (sg ++ ds) ∧ (∀ c ∈ sp, c = 0x20 ∨ (0x09 ≤ c ∧ c ≤ 0x0D)) ∧ (sg = [] ∨ sg = [0x2D] ∨ sg = [0x2B]) ∧ Dec ds n := by
  have e := yamlImport_doc env cfg (.scalar t) es (.int k) old
  rw [show yevents (.scalar t) = [.scalar t] from rfl, h] at e
  simp only [imp, impScalar, ysem] at e
  obtain ⟨i, e1, -⟩ := Res.bind_eq_ok.1 e.symm
  exact scanText_ok e1

/-- C58, reading: whatever sizes libyaml asks for, the chunks it gets are consecutive pieces of the input, each as
large as asked for until the input ends; so the events do not depend on the sizes, only on the input. -/
theorem C58_input_chunks (data : Bytes) (sizes : List Nat) :
    ∃ chunks s, yamlReadChunks sizes (StrIn.ofBytes data) = .ok (chunks, s) ∧ chunks.length = sizes.length ∧
      chunks.flatten = data.take sizes.sum ∧ s.rest = data.drop sizes.sum := by
  obtain ⟨cs, s, e, h1, h2, -, h4, -⟩ := read_chunks sizes (StrIn.ofBytes data) (by simp [StrIn.ofBytes])
  exact ⟨cs, s, e, h1, by simpa [StrIn.rest, StrIn.ofBytes] using h2, by simpa [StrIn.rest, StrIn.ofBytes] using h4⟩

/-- A text with `n` spaces at the beginning and after every line feed. -/
def indented (n : Nat) (text : Bytes) : Bytes :=
  List.replicate n 0x20 ++ text.flatMap fun c => if c = 0x0A then 0x0A :: List.replicate n 0x20 else [c]

/-- C58, writing: however libyaml cuts its output into chunks, the text written is libyaml's text with the block
indentation at the start of each line. -/
theorem C58_output_chunks (blockSize : Nat) (chunks : List Bytes) (h : chunks ≠ []) :
    yamlWriteChunks blockSize false chunks = indented blockSize chunks.flatten := by
  rw [writeChunks blockSize chunks h, indented]
  congr 1
  induction chunks.flatten with
  | nil => rfl
  | cons c cs ih =>
    simp only [yamlWriteLines, List.flatMap_cons, ← ih]
    split <;> simp_all

/-- non-vacuity: two cuts of `a:\n- b\n`. -/
example : yamlWriteChunks 2 false [b!"a:\n", b!"- b\n"] = b!"  a:\n  - b\n  " ∧ yamlWriteChunks 2 false [b!"a", b!":\n- ", b!"b\n"] = b!"  a:\n  - b\n  " := by
  constructor <;> rfl
example : yamlReadChunks [2, 0, 5] (StrIn.ofBytes b!"a: b") = .ok ([b!"a:", [], b!" b"], ⟨b!"a: b", 4, true⟩) := by rfl

/-- C59. For every JSON document `t` with tree `v` whose string values are not `null` or `~`: what the import of the
JSON text gives, the import of the YAML document with the same content gives too. (The reverse does not hold: YAML does
not tell strings from numbers.) -/
theorem C59_json_in_yaml_partial (env : Env) (cfg : Cfg) (conv : Bool) (v : JTree) (t : Bytes) (ty : Ty) (old x : Val)
    (hd : JDoc codePair v t) (hn : StrVals (fun s => s.val conv ≠ b!"null" ∧ s.val conv ≠ b!"~") v)
    (he : env.ints usual) (ht : ty.ints usual) (hs : cfg.strict = .Weak → v.skippable (jsem conv) = true)
    (h : jsonImport env cfg conv ty old t = .ok x) :
    yamlImport env cfg ty old (ydoc (asYaml conv v)) = .ok x := by
  rw [jsonImport_doc env cfg hd ty old (.inl hs)] at h
  obtain ⟨w1, tv, w2, hw1, hw2, hv, rfl⟩ := hd
  have := imp_mono env cfg he (json_readsLike_yaml conv) v (asYaml conv v) (json_shape conv v tv hv hn) ty old ht x h
  rw [← this]
  exact yamlImport_doc env cfg (asYaml conv v) [.streamEnd] ty old

/-- non-vacuity of C59: `[{"a":1}]` as a vector of maps. -/
example (env : Env) (he : env.ints usual) :
    yamlImport env ⟨.Strict, []⟩ (.vec (.smap Samples.int32)) (.list []) (ydoc (.arr [.obj [(b!"a", .scalar b!"1")]])) =
      .ok (.list [.dict [(b!"a", .int 1)]]) :=
  C59_json_in_yaml_partial env ⟨.Strict, []⟩ true (.arr [.obj [(Samples.jstr b!"a", Samples.num 1)]]) b!"[{\"a\":1}]" _ _ _
    (Samples.plain_doc _ (by decide)) (by simp [StrVals, StrVals.elems, StrVals.members, Samples.num]) he (by simp [Ty.ints, Samples.int32, usual]) (by simp)
    (by
      rw [Samples.import_plain (.arr [.obj [(Samples.jstr b!"a", Samples.num 1)]]) (by decide) (t := b!"[{\"a\":1}]") rfl _ _ _ _ _ (by decide)]
      simp [imp, imp.elems, imp.members, impArr, impVec, SeqKind.insert, impObj, impDict, impScalar, jsem, Samples.num, Samples.jstr, Samples.int32, Ty.default,
        InRange, dictGet, dictSet, JStr.val])

/-- C59 for the string `null` is false: behind a pointer the readers disagree. -/
theorem C59_false (env : Env) (cfg : Cfg) :
    jsonImport env cfg true (.uptr .str) .null b!"\"null\"" = .ok (.ptr (.str b!"null")) ∧
    yamlImport env cfg (.uptr .str) .null (ydoc (.scalar b!"null")) = .ok .null := by
  constructor
  · rw [Samples.import_plain (.scalar (.str (Samples.jstr b!"null"))) (by decide) (t := b!"\"null\"") rfl _ _ true _ _ (by decide)]
    simp [imp, impScalar, jsem, Samples.jstr, JStr.val]
  · have := yamlImport_doc env cfg (.scalar b!"null") [.streamEnd] (.uptr .str) .null
    exact this.trans (by simp [imp, impScalar, ysem])

end Thors.Props
