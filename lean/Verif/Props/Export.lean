import Verif.Props.Samples
import Verif.Proofs.JsonExport
import Verif.Proofs.Indent
import Verif.Proofs.NoCtl
import Verif.Proofs.JsonRoundTrip
/-
C20: exported documents are well formed. C21: keys. C22: layouts differ in white space only.
C24: output to a string. C25: the indentation buffer.
-/
namespace Thors.Props
open Thors Spec StrIn

/-! ### C20 -/

/-- C20. A value that can be represented by a document `d` whose keys need no escaping and whose numbers are finite is exported,
in every layout whose indentation the printer can handle, as a text of the RFC 8259 grammar that denotes `d`. -/
theorem C20_export_is_well_formed (env : Env) (cfg : PrintCfg) (ty : Ty) (v : Val) (d : Doc)
    (hd : docOf env cfg.marker ty v = .ok d) (hk : AllKeys cleanKey d) (ha : AllScalars finiteAtom d)
    (hf : FitsIndent cfg (nesting d)) :
    ∃ text t, jsonExport env cfg ty v = .ok text ∧ JDoc rfcPair t text ∧ Denotes t d := by
  obtain ⟨w, tv, ws, ss, hw, ht, -, -, e⟩ := export_doc env cfg ty v d hd hf
  have ha' := AllScalars.imp (fun _ => finite_ok) d ha
  exact ⟨_, jtree streamText d, e, ⟨w, tv, [], hw, by simp [Ws], ptext_jtext rfcPair d tv hk ha' ht, by simp⟩, jtree_denotes d ha'⟩

/-- C20, the other case: a value that cannot be represented (an empty optional outside a class, an
enumeration value without a name) is not exported. -/
theorem C20_unrepresentable_is_refused (env : Env) (cfg : PrintCfg) (ty : Ty) (v : Val) (e : Exc)
    (hd : docOf env cfg.marker ty v = .throw e) : jsonExport env cfg ty v = .throw e :=
  export_fails env cfg ty v e hd

/-- Default settings handle everything nested at most 1000 deep. -/
theorem fits_default (mk : Bytes) (ex : Bool) (n : Nat) (h : n ≤ 1000) : FitsIndent { marker := mk, exact := ex } n := by
  right
  intro k hk
  simp only [indentation]
  simp
  omega

/-- A sample: an object with a base class, a vector, a renamed member. -/
def samplePoint : Val := .obj [.obj [] [.int (-7)]] [.int 12, .list [.int 1, .int 2]]

def samplePointDoc : Doc := .obj [(b!"x", .scalar (.int ⟨32, true⟩ 12)),
  (b!"why", .arr [.scalar (.int ⟨32, true⟩ 1), .scalar (.int ⟨32, true⟩ 2)]), (b!"b", .scalar (.int ⟨32, true⟩ (-7)))]

theorem samplePoint_doc : docOf Samples.env [] (.named 1) samplePoint = .ok samplePointDoc := by
  simp [docOf, docOwn, docParents, docList, samplePoint, Samples.env, Samples.int32, shown, samplePointDoc]

example : ∃ text t, jsonExport Samples.env {} (.named 1) samplePoint = .ok text ∧ JDoc rfcPair t text ∧ Denotes t samplePointDoc :=
  C20_export_is_well_formed Samples.env {} (.named 1) samplePoint samplePointDoc samplePoint_doc
    (by simp [samplePointDoc, AllKeys, AllKeys.members, AllKeys.elems]; decide)
    (by simp [samplePointDoc, AllScalars, AllScalars.members, AllScalars.elems, finiteAtom])
    (fits_default [] false _ (by simp [samplePointDoc, nesting, nesting.members, nesting.elems]))

/-- A sample with floating point values: `std::vector<double>{1.5, -0.0}`. -/
def sampleFloats : Val := .list [.flt (.fin false (3 * 2 ^ 51) 1022), .flt (.fin true 0 0)]

def sampleFloatsDoc : Doc := .arr [.scalar (.flt f64 (.fin false (3 * 2 ^ 51) 1022)), .scalar (.flt f64 (.fin true 0 0))]

theorem sampleFloats_doc (env : Env) : docOf env [] (.vec (.flt f64)) sampleFloats = .ok sampleFloatsDoc := by
  simp [docOf, docList, sampleFloats, sampleFloatsDoc]

example (env : Env) : ∃ text t, jsonExport env {} (.vec (.flt f64)) sampleFloats = .ok text ∧ JDoc rfcPair t text ∧ Denotes t sampleFloatsDoc :=
  C20_export_is_well_formed env {} _ sampleFloats sampleFloatsDoc (sampleFloats_doc env) (by simp [sampleFloatsDoc, AllKeys, AllKeys.elems])
    (by simp [sampleFloatsDoc, AllScalars, AllScalars.elems, finiteAtom, finite])
    (fits_default [] false _ (by simp [sampleFloatsDoc, nesting, nesting.elems]))

/-! ### C21 -/

/-- A map with one element. -/
def oneKey (k : Bytes) : Val := .dict [(k, .int 1)]

theorem oneKey_doc (env : Env) (mk k : Bytes) : docOf env mk (.smap Samples.int32) (oneKey k) = .ok (.obj [(k, .scalar (.int ⟨32, true⟩ 1))]) := rfl

/-- C21 (restricted to keys without control characters, quotes and backslashes). The document is well formed
and the key is recovered on import. -/
theorem C21_keys_partial (env : Env) (cfg : PrintCfg) (icfg : Cfg) (conv : Bool) (k : Bytes) (hk : cleanKey k)
    (hf : FitsIndent cfg 1) : ∃ text t, jsonExport env cfg (.smap Samples.int32) (oneKey k) = .ok text ∧ JDoc rfcPair t text ∧
      Denotes t (.obj [(k, .scalar (.int ⟨32, true⟩ 1))]) ∧
      jsonImport env icfg conv (.smap Samples.int32) (.dict []) text = .ok (oneKey k) := by
  obtain ⟨w, tv, ws, ss, hw, ht, -, -, e⟩ := export_doc env cfg (.smap Samples.int32) (oneKey k) _ (oneKey_doc env cfg.marker k) hf
  have hk' : AllKeys cleanKey (.obj [(k, .scalar (.int ⟨32, true⟩ 1))] : Doc) := ⟨hk, trivial, trivial⟩
  have ha' : AllScalars (AtomOk streamText) (.obj [(k, .scalar (.int ⟨32, true⟩ 1))] : Doc) := ⟨trivial, trivial⟩
  refine ⟨_, jtree streamText (.obj [(k, .scalar (.int ⟨32, true⟩ 1))]), e, ⟨w, tv, [], hw, by simp [Ws], ptext_jtext rfcPair _ tv hk' ha' ht, by simp⟩, jtree_denotes _ ha', ?_⟩
  have himp : imp (jsem conv) env icfg (jtree streamText (.obj [(k, .scalar (.int ⟨32, true⟩ 1))])) (.smap Samples.int32) (.dict []) = .ok (oneKey k) := by
    have : (jsem conv).key ⟨k, k⟩ = k := by simp [jsem, JStr.val]
    simp [jtree, jtree.members, jscalar, imp, imp.members, impObj, impDict, impScalar, this, Samples.int32, dictSet, oneKey]
    simp [jsem, InRange]
  rw [jsonImport_doc env icfg (⟨w, tv, [], hw, by simp [Ws], ptext_jtext codePair _ tv hk' ha' ht, by simp⟩ : JDoc codePair (jtree streamText _) (w ++ tv)) _ _
    (.inr (by rw [himp]; intro h; cases h)), himp]

example : cleanKey b!"café / key" := by decide

/-- C21 is false: keys are not escaped. (1) A key with a control character makes the document malformed.
(2) A key of a backslash and an `n` gives a well formed document with another key: it is a newline after
import. -/
theorem C21_false (env : Env) (icfg : Cfg) :
    (∃ k text, jsonExport env {} (.smap Samples.int32) (oneKey k) = .ok text ∧ ¬ ∃ t, JDoc rfcPair t text) ∧
    (∃ k text, jsonExport env {} (.smap Samples.int32) (oneKey k) = .ok text ∧
      ∃ k', k' ≠ k ∧ jsonImport env icfg true (.smap Samples.int32) (.dict []) text = .ok (oneKey k')) := by
  constructor
  · obtain ⟨w, tv, ws, ss, hw, ht, -, -, e⟩ := export_doc env {} (.smap Samples.int32) (oneKey [0x01]) _ (oneKey_doc env [] [0x01])
      (fits_default [] false 1 (by decide))
    refine ⟨[0x01], _, e, ?_⟩
    rintro ⟨t, w1, tv', w2, h1, h2, h3, h4⟩
    obtain ⟨ps, ⟨a, b, c, d, ps', ha, hb, hc, hd, hps, rfl⟩, rfl⟩ := ht
    rw [show ps' = [] from hps] at h4
    have hin : (1 : Byte) ∈ w1 ++ tv' ++ w2 := by rw [← h4]; simp [commas]
    simp [jtext_no_ctl rfcPair t tv' h3, ws_no_ctl h1, ws_no_ctl h2] at hin
  · obtain ⟨w, tv, ws, ss, hw, ht, -, -, e⟩ := export_doc env {} (.smap Samples.int32) (oneKey b!"\\n") _ (oneKey_doc env [] b!"\\n")
      (fits_default [] false 1 (by decide))
    refine ⟨b!"\\n", _, e, [0x0A], by decide, ?_⟩
    obtain ⟨ps, ⟨a, b, c, d, ps', ha, hb, hc, hd, hps, rfl⟩, rfl⟩ := ht
    rw [show ps' = [] from hps]
    have himp : imp (jsem true) env icfg (.obj [(⟨b!"\\n", [0x0A]⟩, .scalar (.int (intText 1) 1))]) (.smap Samples.int32) (.dict []) = .ok (oneKey [0x0A]) := by
      simp [imp, imp.members, impObj, impDict, impScalar, Samples.int32, jsem, JStr.val, dictSet, oneKey, InRange]
    refine (jsonImport_doc env icfg (v := .obj [(⟨b!"\\n", [0x0A]⟩, .scalar (.int (intText 1) 1))]) ?_ _ _ (.inr (by rw [himp]; intro h; cases h))).trans himp
    refine ⟨w, _, [], hw, by simp [Ws], ⟨_, ⟨a, [], b, c, d, [], ha, by simp [Ws], hb, hc, ?_, ?_, rfl, rfl⟩, rfl⟩, by simp⟩
    · exact .basic (.short .n) .nil
    · rw [PText] at hd
      subst hd
      exact ⟨rfl, intText_lit 1, intText_noLeadingZero 1⟩

/-! ### C22 -/

/-- C22. For a value with a document there is one sequence of tokens such that the text emitted in every
layout, with every tab size and block indent the printer can handle, consists of these tokens with white
space before, between and after them. (No condition on the keys: what is between quotes is one token.) -/
theorem C22_layout_is_white_space (env : Env) (marker : Bytes) (ty : Ty) (v : Val) (d : Doc) (hd : docOf env marker ty v = .ok d) :
    ∃ tokens, (∀ t ∈ tokens, IsToken t) ∧ ∀ cfg : PrintCfg, cfg.marker = marker → FitsIndent cfg (nesting d) →
      ∃ text, jsonExport env cfg ty v = .ok text ∧ Laid tokens text := by
  refine ⟨toks streamText d, toks_tokens streamText_token d, fun cfg hm hf => ?_⟩
  subst hm
  obtain ⟨w, tv, ws, ss, hw, ht, -, -, e⟩ := export_doc env cfg ty v d hd hf
  refine ⟨_, e, Laid.ws hw ?_⟩
  have := ptext_laid d tv ht [] [] (.nil ws_nil)
  simpa using this

/-- The tokens determine the text up to white space: two texts with the same tokens are equal once white
space between tokens is dropped. -/
theorem laid_dense {tokens : List Bytes} {text : Bytes} (h : Laid tokens text) : ∃ ws : List Bytes, (∀ w ∈ ws, Ws w) ∧ ws.length = tokens.length + 1 ∧
    text = (List.zipWith (· ++ ·) ws (tokens ++ [[]])).flatten := by
  induction h with
  | @nil w h => exact ⟨[w], by simpa using h, rfl, by simp⟩
  | @cons w x t xs h ht ih =>
    obtain ⟨ws, h1, h2, h3⟩ := ih
    refine ⟨w :: ws, ?_, by simp [h2], by simp [h3]⟩
    intro w' hw'
    rcases List.mem_cons.1 hw' with rfl | h'
    · exact h
    · exact h1 _ h'

/-- Settings of every layout the printer can handle at nesting depth 2. -/
example : FitsIndent { layout := .Stream } 2 ∧ FitsIndent { layout := .Config, tabSize := 7, blockSize := 100 } 2 ∧ FitsIndent {} 2 := by
  refine ⟨.inl rfl, .inr ?_, fits_default [] false 2 (by decide)⟩
  intro k hk
  match k, hk with
  | 0, _ | 1, _ | 2, _ => decide

example : ∃ tokens, (∀ t ∈ tokens, IsToken t) ∧ ∀ cfg : PrintCfg, cfg.marker = [] → FitsIndent cfg (nesting samplePointDoc) →
      ∃ text, jsonExport Samples.env cfg (.named 1) samplePoint = .ok text ∧ Laid tokens text :=
  C22_layout_is_white_space Samples.env [] (.named 1) samplePoint samplePointDoc samplePoint_doc

/-! ### C24 -/

/-- A write that the sizes of the first pass are enough for. The estimate is 25 characters for a value (used unless exact sizes were
asked for); exact sizes are right for floating point values of at most 100 characters other than a negative zero. -/
def sizeFits (estimate : Bool) : Write → Prop
  | .chars _ => True
  | .value t => estimate = true → t.length ≤ 25
  | .flt f x => if estimate then (stringText f x).length ≤ 25 else (stringText f x).length ≤ 100 ∧ ∀ E, x ≠ .fin true 0 E

theorem need_le (estimate : Bool) (w : Write) (h : sizeFits estimate w) :
    need w ≤ counted estimate w ∧ (estimate = false → counted estimate w = (w.bytesIn stringText).length) := by
  cases w with
  | chars b => exact ⟨Nat.le_refl _, fun _ => rfl⟩
  | value t =>
    cases estimate with
    | true => exact ⟨h rfl, by simp⟩
    | false => exact ⟨Nat.le_refl _, fun _ => rfl⟩
  | flt f x =>
    by_cases hz : ∃ E, x = .fin true 0 E
    · obtain ⟨E, rfl⟩ := hz
      cases estimate with
      | true => exact ⟨by show 4 ≤ 25; decide, by simp⟩
      | false => exact absurd rfl (h.2 E)
    · have hn : need (.flt f x) = (stringText f x).length := by
        unfold need
        split
        · rename_i E he; cases he; exact absurd ⟨_, rfl⟩ hz
        · rfl
      rw [hn]
      cases estimate with
      | true => exact ⟨h, by simp⟩
      | false =>
        have h1 : (stringText f x).length ≤ 100 := h.1
        have hc : counted false (.flt f x) = (stringText f x).length := by simp only [counted, Bool.false_eq_true, if_false]; omega
        rw [hc]
        exact ⟨Nat.le_refl _, fun _ => rfl⟩

/-- C24, for any sequence of writes that the sizes of the first pass are enough for. The two passes succeed, never write outside the
string (`ub` in the model), the size reserved is at least what is needed, the final string is exactly the
text, whatever was in it before; and with exact sizes the reserved size is the length of the text. -/
theorem C24_two_passes (writes : List Write) (old : Bytes) (estimate : Bool) (h : ∀ w ∈ writes, sizeFits estimate w) :
    ∃ s1 s2 s3 : StrOut, (StrOut.ofString old estimate).preflightSize.putAll writes = .ok s1 ∧
      s1.reserveSize.putAll writes = .ok s2 ∧ s2.finalizePrint = .ok s3 ∧
      (bytesIn stringText writes).length ≤ s1.reserveSize.data.length ∧ s3.data = bytesIn stringText writes ∧
      (estimate = false → s1.reserveSize.data.length = (bytesIn stringText writes).length) := by
  have hs : ∀ ws : List Write, (∀ w ∈ ws, sizeFits estimate w) →
      (bytesIn stringText ws).length ≤ (ws.map need).sum ∧ (ws.map need).sum ≤ (ws.map (counted estimate)).sum ∧
        (estimate = false → (ws.map (counted estimate)).sum = (bytesIn stringText ws).length) := by
    intro ws
    induction ws with
    | nil => intro _; simp [bytesIn]
    | cons w ws ih =>
      intro h
      obtain ⟨i1, i2, i3⟩ := ih (fun w hw => h w (by simp [hw]))
      obtain ⟨n1, n2⟩ := need_le estimate w (h w (by simp))
      have n3 := length_le_need w
      simp only [bytesIn_cons, List.length_append, List.map_cons, List.sum_cons]
      exact ⟨by omega, by omega, fun he => by have := i3 he; have := n2 he; omega⟩
  obtain ⟨h1, h2, h3⟩ := hs writes h
  have e1 := pass1 writes ((StrOut.ofString old estimate).preflightSize) rfl
  simp only [StrOut.ofString, StrOut.preflightSize, Nat.zero_add] at e1
  obtain ⟨data, e2, l2, t2⟩ := pass2 writes
    ({ data := old, current := none, calcSize := (writes.map (counted estimate)).sum, preFlight := true, estimate := estimate } : StrOut).reserveSize
    0 rfl rfl (by simp [StrOut.reserveSize]; omega)
  refine ⟨_, _, _, e1, e2, rfl, ?_, ?_, ?_⟩
  · simp [StrOut.reserveSize]; omega
  · simp only [Nat.zero_add] at t2 ⊢
    have : (bytesIn stringText writes).length ≤ data.length := by rw [l2]; simp [StrOut.reserveSize]; omega
    rw [t2, Nat.sub_eq_zero_of_le this]
    simp
  · intro he; simp [StrOut.reserveSize, h3 he]; omega

/-- An integer in the range of its type, which has at most 64 bits; a floating point value that is finite, no negative zero and, in
magnitude, at most `10^17 - 1`, or `10^92 - 1` if exact sizes are asked for. -/
def atomFits (exact : Bool) : Atom → Prop
  | .int k i => k.bits ≤ 64 ∧ InRange k i
  | .flt f (.fin neg m E) => m * 2 ^ E ≤ (10 ^ (if exact then 92 else 17) - 1) * 2 ^ f.q ∧ (m ≠ 0 ∨ neg = false)
  | .flt _ _ => False
  | _ => True

/-- Not a floating point value. -/
def notFloat : Atom → Prop
  | .flt _ _ => False
  | _ => True

theorem fits_range {k : IntKind} {i : Int} (hb : k.bits ≤ 64) (h : InRange k i) : -(2 ^ 63 : Int) ≤ i ∧ i < (2 ^ 64 : Int) := by
  obtain ⟨b, s⟩ := k
  rw [← fits_iff] at h
  simp only [IntKind.fits, IntKind.lo, IntKind.hi, decide_eq_true_eq] at h hb
  have p1 : (2 : Int) ^ b ≤ 2 ^ 64 := by exact_mod_cast Nat.pow_le_pow_right (by decide) hb
  have p2 : (2 : Int) ^ (b - 1) ≤ 2 ^ 63 := by exact_mod_cast Nat.pow_le_pow_right (n := 2) (by decide) (show b - 1 ≤ 63 by omega)
  cases s <;> simp at h <;> omega

/-- The text of a floating point value below `10^k`. -/
theorem stringText_length (f : FKind) (neg : Bool) (m E k : Nat) (hk : 0 < k) (h : m * 2 ^ E ≤ (10 ^ k - 1) * 2 ^ f.q) :
    (stringText f (.fin neg m E)).length ≤ k + 8 := by
  by_cases hm : m = 0
  · subst hm
    have : (stringText f (.fin neg 0 E)).length = 3 := by cases neg <;> rfl
    omega
  · rw [stringText_fixed f neg hm]
    have h1 : rnd (m * 2 ^ E * 10 ^ 6) (2 ^ f.q) ≤ (10 ^ k - 1) * 10 ^ 6 := by
      refine rnd_le (pow_pos2 _) ?_
      rw [Nat.mul_right_comm (10 ^ k - 1)]
      exact Nat.mul_le_mul_right _ h
    have h2 : rnd (m * 2 ^ E * 10 ^ 6) (2 ^ f.q) / 10 ^ 6 < 10 ^ k := by
      have := Nat.pow_pos (n := k) (show 0 < 10 by decide)
      have h3 := Nat.div_le_div_right (c := 10 ^ 6) h1
      rw [Nat.mul_div_cancel _ (by decide)] at h3
      omega
    have h3 := natText_length (k - 1) (rnd (m * 2 ^ E * 10 ^ 6) (2 ^ f.q) / 10 ^ 6) (by rwa [Nat.sub_add_cancel hk])
    have h4 : ∀ n, (pad 6 n).length = 6 := fun n => pad_length 6 n
    have h5 : (signText neg).length ≤ 1 := by cases neg <;> decide
    unfold fixed6
    simp only [List.length_append, h4, List.length_cons, List.length_nil]
    omega

/-- The sizes of the first pass are enough for what is written for a document. -/
theorem doc_fits {cfg : PrintCfg} {d : Doc} {ws : List Write} {ss : List JPrint.PState} (hr : JPrint.run cfg (cmdsOf d) JPrint.init = .ok (ws, ss))
    (ha : AllScalars (atomFits cfg.exact) d) : ∀ w ∈ ws, sizeFits (!cfg.exact) w := by
  intro w hw
  by_cases hv : w.isValue = true
  · obtain ⟨c, hc, e⟩ := run_out _ hr w hv hw
    obtain ⟨a, ha', rfl⟩ := cmds_atoms (atomFits cfg.exact) d ha c hc w e
    cases a with
    | null => cases e
    | str s => cases e
    | bool b => cases e; intro _; cases b <;> decide
    | int k i =>
      cases e
      have := fits_range ha'.1 ha'.2
      have := intText_length i this.1 this.2
      intro _
      omega
    | flt f x =>
      cases e
      cases x with
      | fin neg m E =>
        obtain ⟨g1, g2⟩ := ha'
        have hl := stringText_length f neg m E _ (by cases cfg.exact <;> decide) g1
        cases hx : cfg.exact with
        | true =>
          rw [hx] at hl
          refine ⟨hl, ?_⟩
          intro E' he
          cases he
          simp at g2
        | false => rw [hx] at hl; exact hl
      | _ => exact ha'.elim
  · cases w with
    | chars b => trivial
    | _ => simp [Write.isValue] at hv

/-- Without floating point values the texts for strings and streams are the same. -/
theorem doc_texts {cfg : PrintCfg} {d : Doc} {ws : List Write} {ss : List JPrint.PState} (hr : JPrint.run cfg (cmdsOf d) JPrint.init = .ok (ws, ss))
    (hn : AllScalars notFloat d) : bytesIn stringText ws = bytesOf ws := by
  have : ∀ w ∈ ws, w.bytesIn stringText = w.bytesIn streamText := by
    intro w hw
    cases w with
    | flt f x =>
      obtain ⟨c, hc, e⟩ := run_out _ hr _ rfl hw
      obtain ⟨a, ha', rfl⟩ := cmds_atoms notFloat d hn c hc _ e
      cases a with
      | flt f x => exact ha'.elim
      | _ => cases e
    | _ => rfl
  unfold bytesOf bytesIn
  rw [List.map_congr_left this]

/-- The string that is exported: the printer's writes with the texts for strings. -/
theorem export_string (env : Env) (cfg : PrintCfg) (ty : Ty) (v : Val) (d : Doc) (old : Bytes)
    (hd : docOf env cfg.marker ty v = .ok d) (ha : AllScalars (atomFits cfg.exact) d) :
    jsonExportString env cfg ty v old = (JPrint.run cfg (cmdsOf d) JPrint.init).map' fun p => bytesIn stringText p.1 := by
  simp only [jsonExportString, ser_doc, hd, Res.map'_ok, Res.ok_bind]
  cases hr : JPrint.run cfg (cmdsOf d) JPrint.init with
  | ok p =>
    obtain ⟨ws, ss⟩ := p
    simp only [Res.ok_bind]
    obtain ⟨s1, s2, s3, e1, e2, e3, -, e4, -⟩ := C24_two_passes ws old (!cfg.exact) (doc_fits hr ha)
    rw [e1]; simp only [Res.ok_bind]
    rw [e2]; simp only [Res.ok_bind]
    rw [e3]; simp only [Res.ok_bind, e4]
    rfl
  | _ => rfl

/-- C24, for the exporter. Exporting a value without floating point numbers into a `std::string` gives exactly the text that is
exported to a stream, whatever the string contained before and whether exact sizes are asked for or not. -/
theorem C24_export_to_string (env : Env) (cfg : PrintCfg) (ty : Ty) (v : Val) (d : Doc) (old : Bytes)
    (hd : docOf env cfg.marker ty v = .ok d) (ha : AllScalars (atomFits cfg.exact) d) (hn : AllScalars notFloat d) :
    jsonExportString env cfg ty v old = jsonExport env cfg ty v := by
  rw [export_string env cfg ty v d old hd ha]
  simp only [jsonExport, ser_doc, hd, Res.map'_ok, Res.ok_bind]
  cases hr : JPrint.run cfg (cmdsOf d) JPrint.init with
  | ok p =>
    obtain ⟨ws, ss⟩ := p
    simp only [Res.ok_bind, Res.map'_ok, Res.pure_eq, doc_texts hr hn]
  | _ => rfl

/-- C66, for finite numbers that are no negative zero and not too large (`atomFits`). They are written with another format into a string than on a stream; the text is the same
otherwise: it is well formed and denotes the same document. -/
theorem C66_string_is_well_formed_partial (env : Env) (cfg : PrintCfg) (ty : Ty) (v : Val) (d : Doc) (old : Bytes)
    (hd : docOf env cfg.marker ty v = .ok d) (ha : AllScalars (atomFits cfg.exact) d) (hk : AllKeys cleanKey d) (hf : FitsIndent cfg (nesting d)) :
    ∃ text t, jsonExportString env cfg ty v old = .ok text ∧ JDoc rfcPair t text ∧ Denotes t d := by
  rw [export_string env cfg ty v d old hd ha]
  obtain ⟨ws, st, w, tv, e, -, -, hw, ht, hb⟩ := run_doc stringText cfg d ⟨0, .Value, false⟩ [] (by simpa using fits_width hf)
  rw [show JPrint.init = [⟨0, .Value, false⟩] from rfl, e]
  have ha' : AllScalars (AtomOk stringText) d := AllScalars.imp (fun a h => by
    cases a with
    | flt f x =>
      cases x with
      | fin neg m E => exact stringText_close f neg m E h.2
      | _ => exact h.elim
    | _ => trivial) d ha
  refine ⟨_, jtree stringText d, rfl, ⟨w, tv, [], hw, by simp [Ws], ptext_jtext rfcPair d tv hk ha' ht, ?_⟩, jtree_denotes d ha'⟩
  simp [hb, sepOf]

example : ∃ text, jsonExportString Samples.env {} (.named 1) samplePoint b!"old contents" = .ok text := by
  rw [C24_export_to_string Samples.env {} (.named 1) samplePoint samplePointDoc _ samplePoint_doc
    (by simp [samplePointDoc, AllScalars, AllScalars.members, AllScalars.elems, atomFits]; decide)
    (by simp [samplePointDoc, AllScalars, AllScalars.members, AllScalars.elems, notFloat])]
  obtain ⟨w, tv, _, _, _, _, _, _, e⟩ := export_doc Samples.env {} (.named 1) samplePoint samplePointDoc samplePoint_doc
    (fits_default [] false _ (by simp [samplePointDoc, nesting, nesting.members, nesting.elems]))
  exact ⟨_, e⟩

/-- `std::vector<double>{1.5, 0.0}` into a string. -/
example (env : Env) : ∃ text t, jsonExportString env {} (.vec (.flt f64)) (.list [.flt (.fin false (3 * 2 ^ 51) 1022), .flt (.fin false 0 0)]) b!"old" = .ok text ∧
    JDoc rfcPair t text ∧ Denotes t (.arr [.scalar (.flt f64 (.fin false (3 * 2 ^ 51) 1022)), .scalar (.flt f64 (.fin false 0 0))]) :=
  C66_string_is_well_formed_partial env {} _ _ _ _ (by simp [docOf, docList])
    ⟨⟨by decide +kernel, by decide⟩, ⟨by decide +kernel, by decide⟩, trivial⟩ (by simp [AllKeys, AllKeys.elems])
    (fits_default [] false _ (by simp [nesting, nesting.elems]))

theorem copy_ub {s : StrOut} {p : Nat} {t : Bytes} (hc : s.current = some p) (h : s.data.length < p + t.length) : s.copy t = .ub := by
  unfold StrOut.copy
  rw [hc]
  simp only
  rw [if_neg (by omega)]

/-- A single floating point value for which too little room is reserved. -/
theorem single_ub (env : Env) (cfg : PrintCfg) (f : FKind) (x : Flt) (old : Bytes) (t : Bytes)
    (ht : ∀ s : StrOut, s.preFlight = false → s.copy t = .ub → s.put (.flt f x) = .ub)
    (h : (if cfg.exact then min 100 (stringText f x).length else 25) < t.length) :
    jsonExportString env cfg (.flt f) (.flt x) old = .ub := by
  obtain ⟨ss, hr⟩ : ∃ ss, JPrint.run cfg (cmdsOf (.scalar (.flt f x))) JPrint.init = .ok ([.chars [], .flt f x], ss) := by
    have e : JPrint.separator ⟨0, .Value, false⟩ false false = [.chars []] := rfl
    simp only [cmdsOf, atomCmd, JPrint.run, JPrint.init, JPrint.step, JPrint.value, reduceCtorEq, false_and, or_false, and_false, decide_false, e,
      Res.ok_bind, Res.pure_eq]
    exact ⟨_, rfl⟩
  have hd : docOf env cfg.marker (.flt f) (.flt x) = .ok (.scalar (.flt f x)) := rfl
  simp only [jsonExportString, ser_doc, hd, Res.map'_ok, Res.ok_bind, hr]
  have e1 := pass1 [.chars [], .flt f x] ((StrOut.ofString old (!cfg.exact)).preflightSize) rfl
  simp only [StrOut.ofString, StrOut.preflightSize, Nat.zero_add] at e1 ⊢
  rw [e1]
  simp only [Res.ok_bind, StrOut.putAll]
  have e2 : ∀ s : StrOut, s.preFlight = false → s.current = some 0 → s.put (.chars []) = .ok s := by
    rintro ⟨data, cur, sz, pre, est⟩ h1 h2
    simp only at h1 h2
    subst h1 h2
    simp [StrOut.put, StrOut.copy]
  rw [e2 _ rfl rfl]
  simp only [Res.ok_bind]
  rw [ht _ rfl]
  · rfl
  · refine copy_ub (p := 0) rfl ?_
    have : ([Write.chars [], Write.flt f x].map (counted (!cfg.exact))).sum < t.length := by
      simp only [List.map_cons, List.map_nil, List.sum_cons, List.sum_nil, Nat.add_zero, counted, List.length_nil, Nat.zero_add]
      cases hx : cfg.exact <;> simpa [hx] using h
    simp only [StrOut.reserveSize, List.length_append, List.length_take, List.length_replicate]
    omega

/-- C66 without the restrictions is false. (1) With default settings the double 2^60 does not fit into the 25 characters reserved
for it. (2) With exact sizes a negative zero is written beyond the end of the string. -/
theorem C66_false (env : Env) (old : Bytes) :
    jsonExportString env {} (.flt f64) (.flt (.fin false (2 ^ 52) 1082)) old = .ub ∧
    jsonExportString env { exact := true } (.flt f64) (.flt (.fin true 0 0)) old = .ub := by
  constructor
  · refine single_ub env {} f64 _ old (fixed6 f64 (.fin false (2 ^ 52) 1082)) (fun s hp h => ?_) ?_
    · simp only [StrOut.put, hp, Bool.false_eq_true, if_false]
      exact h
    · have hN : rnd (2 ^ 52 * 2 ^ 1082 * 10 ^ 6) (2 ^ f64.q) = 1152921504606846976 * 10 ^ 6 := by decide +kernel
      have := natText_length_ge (k := 18) (n := 1152921504606846976) (by decide)
      unfold fixed6
      simp only [hN, List.length_append, pad_length]
      rw [Nat.mul_div_cancel _ (by decide)]
      simp
      omega
  · refine single_ub env { exact := true } f64 _ old b!"-0.0" (fun s hp h => ?_) (by show min 100 3 < 4; decide)
    simp only [StrOut.put, hp, Bool.false_eq_true, if_false, if_true, h]
    rfl

/-! ### C25 -/

/-- C25 (restricted to indentations of at most 4003 characters). Printing stays inside the indentation
buffer. -/
theorem C25_indent_inside_partial (env : Env) (cfg : PrintCfg) (ty : Ty) (v : Val) (d : Doc) (hd : docOf env cfg.marker ty v = .ok d)
    (hf : FitsIndent cfg (nesting d)) : jsonExport env cfg ty v ≠ .ub := by
  obtain ⟨w, tv, _, _, _, _, _, _, e⟩ := export_doc env cfg ty v d hd hf
  rw [e]; intro h; cases h

/-- Vectors nested `n` deep in a vector. -/
def nestTy : Nat → Ty
  | 0 => .vec .bool
  | n + 1 => .vec (nestTy n)
def nestVal : Nat → Val
  | 0 => .list []
  | n + 1 => .list [nestVal n]
def nestDoc : Nat → Doc
  | 0 => .arr []
  | n + 1 => .arr [nestDoc n]

theorem nest_doc (env : Env) (mk : Bytes) : ∀ n, docOf env mk (nestTy n) (nestVal n) = .ok (nestDoc n)
  | 0 => rfl
  | n + 1 => by simp [nestTy, nestVal, nestDoc, docOf, docList, nest_doc env mk n]

theorem nest_nesting : ∀ n, nesting (nestDoc n) = n + 1
  | 0 => rfl
  | n + 1 => by simp [nestDoc, nesting, nesting.elems, nest_nesting n]; omega

/-- 1000 levels: the hypotheses of C25_indent_inside_partial are met. -/
example (env : Env) : jsonExport env {} (nestTy 999) (nestVal 999) ≠ .ub :=
  C25_indent_inside_partial env {} _ _ _ (nest_doc env [] 999) (by rw [nest_nesting]; exact fits_default [] false _ (by decide))

theorem nest_cmds : ∀ n, ∃ rest, cmdsOf (nestDoc n) = List.replicate (n + 1) (.openArray 0) ++ rest
  | 0 => ⟨[.closeArray], rfl⟩
  | n + 1 => by
    obtain ⟨rest, e⟩ := nest_cmds n
    exact ⟨rest ++ [.closeArray], by rw [List.replicate_succ]; simp [nestDoc, cmdsOf, cmdsOf.elems, e]⟩

theorem opens_ub (cfg : PrintCfg) (hs : cfg.layout ≠ .Stream) (h : Nat) (hw : 4003 < JPrint.width cfg h) (rest : List Cmd) :
    ∀ (n : Nat) (st : JPrint.PState) (ss : List JPrint.PState), ss.length ≤ h → h < ss.length + n →
      JPrint.run cfg (List.replicate n (.openArray 0) ++ rest) (st :: ss) = .ub
  | 0, _, ss, h1, h2 => by omega
  | n + 1, st, ss, h1, h2 => by
    rw [List.replicate_succ, List.cons_append, JPrint.run]
    by_cases hwd : JPrint.width cfg ss.length ≤ 4003
    · have hl : ss.length < h := by
        rcases Nat.lt_or_eq_of_le h1 with h | h
        · exact h
        · rw [h] at hwd; omega
      simp only [JPrint.step, JPrint.indentSuffix, hs, ne_eq, not_false_eq_true, decide_true, Bool.true_eq_false, if_false, hwd, if_true, Res.ok_bind,
        Res.pure_eq]
      rw [opens_ub cfg hs h hw rest n _ (st :: ss) (by simp; omega) (by simp; omega)]
      rfl
    · simp only [JPrint.step, JPrint.indentSuffix, hs, ne_eq, not_false_eq_true, decide_true, Bool.true_eq_false, if_false, hwd]
      rfl

/-- C25 is false: with default settings every value nested more than 1001 levels deep makes the printer
write outside the indentation buffer. -/
theorem C25_false (env : Env) (n : Nat) (hn : 1001 ≤ n) : jsonExport env {} (nestTy n) (nestVal n) = .ub := by
  obtain ⟨rest, e⟩ := nest_cmds n
  simp only [jsonExport, ser_doc, nest_doc, Res.map'_ok, Res.ok_bind, e, JPrint.init]
  rw [opens_ub {} (by decide) 1001 (by decide) rest (n + 1) _ [] (by simp) (by simp; omega)]
  rfl

/-- C25, exactly (for indentations that fit into `std::size_t`): printing leaves the indentation buffer if and only if the
document has a bracket whose indentation is 4004 characters or more, or a key whose indentation is more than 4005. In all other
cases a text is printed. -/
theorem C25_exact (env : Env) (cfg : PrintCfg) (ty : Ty) (v : Val) (d : Doc) (hd : docOf env cfg.marker ty v = .ok d)
    (hl : cfg.layout ≠ .Stream) (ht : 0 ≤ cfg.tabSize) (hb : 0 ≤ cfg.blockSize) (hs : indentation cfg (nesting d) < 2 ^ 64) :
    (jsonExport env cfg ty v = .ub ↔ ¬ IndentsInside cfg 0 d) ∧ ((∃ text, jsonExport env cfg ty v = .ok text) ↔ IndentsInside cfg 0 d) := by
  obtain ⟨h1, h2⟩ := JPrint.indent_exact cfg d ⟨0, .Value, false⟩ [] (by simpa [JPrint.Tame] using ⟨hl, ht, hb, hs⟩)
  simp only [jsonExport, ser_doc, hd, Res.map'_ok, Res.ok_bind, JPrint.init]
  by_cases h : IndentsInside cfg 0 d
  · obtain ⟨w, b, e⟩ := h1 h
    rw [e]
    exact ⟨⟨fun h => (by cases h), fun h' => absurd h h'⟩, ⟨fun _ => h, fun _ => ⟨_, rfl⟩⟩⟩
  · rw [h2 h]
    exact ⟨⟨fun _ => h, fun _ => rfl⟩, ⟨fun ⟨_, h⟩ => (by cases h), fun h' => absurd h' h⟩⟩

/-- With an indentation of 4000 characters in front of all lines, a map with one entry is just printed; with 4001 it is not. -/
example (env : Env) : (∃ text, jsonExport env { blockSize := 4000 } (.smap .bool) (.dict [(b!"a", .bool true)]) = .ok text) ∧
    jsonExport env { blockSize := 4001 } (.smap .bool) (.dict [(b!"a", .bool true)]) = .ub := by
  have hd : ∀ cfg : PrintCfg, docOf env cfg.marker (.smap .bool) (.dict [(b!"a", .bool true)]) = .ok (.obj [(b!"a", .scalar (.bool true))]) := fun _ => rfl
  constructor
  · refine (C25_exact env { blockSize := 4000 } _ _ _ (hd _) (by decide) (by decide) (by decide) (by decide)).2.2 ?_
    simp [IndentsInside, IndentsInside.members, indentation]
  · refine (C25_exact env { blockSize := 4001 } _ _ _ (hd _) (by decide) (by decide) (by decide) (by decide)).1.2 ?_
    simp [IndentsInside, IndentsInside.members, indentation]

end Thors.Props
