import Verif.Spec.Custom
import Verif.Proofs.AnyMore
import Verif.Proofs.BsonPrint
import Verif.Proofs.BsonStreamDoc
import Verif.Proofs.JsonPrint
/-
Classes that write and read themselves.
-/
namespace Thors
open Spec StrIn

section
variable {V K X σ : Type} (S : Streamed V) (o : POps σ) (sem : ScalarSem K X)

theorem customScan_at {x : X} {b : Bytes} {Q : σ → Prop} {s : σ} {p : PI σ} (v : V) (hg : Gets o p .Value s) (h : After o sem (.scalar x) Q s) (hb : sem.raw x = some b) :
    ∃ s', customScan S o v p = .ok ((S.get b v).1, PI.init s') ∧ Q s' := by
  obtain ⟨s', e, hq⟩ := h.2.2.2.2.2.1 b hb
  refine ⟨s', ?_, hq⟩
  rw [customScan, hg]
  simp only [Res.ok_bind]
  rw [if_neg (by simp)]
  simp only [PI.init] at e ⊢
  rw [e]
  rfl

theorem customScans_at : ∀ (ts : List (Tr K X)) (bs : List Bytes) (vs : List V) {Q : σ → Prop} {s : σ}, rawTexts sem.raw ts = some bs →
    After.elems o sem ts Q s → ∃ s', customScans S o vs (PI.init s) = .ok (vs ++ bs.map (fun b => (S.get b S.fresh).1), PI.init s') ∧ Q s'
  | [], bs, vs, Q, s, hb, ⟨s1, e1, hq⟩ => by
    cases hb
    refine ⟨s1, ?_, hq⟩
    rw [customScans, gets_next o e1]
    simp
  | .scalar x :: ts, bs, vs, Q, s, hb, ⟨s1, e1, h⟩ => by
    simp only [rawTexts, Option.bind_eq_some_iff, Option.map_eq_some_iff] at hb
    obtain ⟨b, hb, bs, hbs, rfl⟩ := hb
    have e1 : o.next s = .ok (.Value, s1) := e1
    obtain ⟨s2, e2, h2⟩ := customScan_at S o sem S.fresh (gets_pushed o (by simp)) h hb
    obtain ⟨s3, e3, h3⟩ := customScans_at ts bs (vs ++ [(S.get b S.fresh).1]) hbs h2
    refine ⟨s3, ?_, h3⟩
    rw [customScans, gets_next o e1]
    simp only [Res.ok_bind]
    rw [if_neg (by simp), e2]
    simp only [Res.ok_bind]
    rw [e3]
    simp
  | .arr _ :: ts, bs, vs, Q, s, hb, _ => by cases hb
  | .obj _ :: ts, bs, vs, Q, s, hb, _ => by cases hb

/-- A whole document, in any format. -/
theorem customImport_at {t : Tr K X} {R : σ → Prop} {s s1 : σ} (h1 : o.next s = .ok (.DocStart, s1))
    (h2 : Presents o sem t (fun s => ∃ s', o.next s = .ok (.DocEnd, s') ∧ R s') s1) {x y : CVal V} (hy : CVal.read S sem.raw x t = some y) :
    ∃ s', customImport S o x (PI.init s) = .ok (y, PI.init s') ∧ R s' := by
  obtain ⟨s2, e2, h3⟩ := h2
  have key : ∃ s3, streamedRead S o x (PI.init s1) = .ok (y, PI.init s3) ∧ ∃ s', o.next s3 = .ok (.DocEnd, s') ∧ R s' := by
    cases x with
    | one v =>
      cases t with
      | scalar x =>
        simp only [CVal.read, Option.map_eq_some_iff] at hy
        obtain ⟨b, hb, rfl⟩ := hy
        obtain ⟨s3, e3, hq⟩ := customScan_at S o sem v (gets_next o e2) h3 hb
        exact ⟨s3, by rw [streamedRead, e3]; rfl, hq⟩
      | arr _ => cases hy
      | obj _ => cases hy
    | vec vs =>
      cases t with
      | arr ts =>
        simp only [CVal.read, Option.map_eq_some_iff] at hy
        obtain ⟨bs, hb, rfl⟩ := hy
        obtain ⟨s3, e3, hq⟩ := customScans_at S o sem ts bs vs hb h3.2
        refine ⟨s3, ?_, hq⟩
        rw [streamedRead, gets_next o (show o.next s1 = .ok (.ArrayStart, s2) from e2)]
        simp only [Res.ok_bind]
        rw [if_neg (by simp), e3]
        rfl
      | scalar _ => cases hy
      | obj _ => cases hy
  obtain ⟨s3, e3, s4, e4, hr⟩ := key
  refine ⟨s4, ?_, hr⟩
  rw [customImport, gets_next o h1]
  simp only [Res.ok_bind]
  rw [if_neg (by simp), e3]
  simp only [Res.ok_bind]
  rw [gets_next o e4]
  simp only [Res.ok_bind]
  rw [if_neg (by simp)]
  rfl

/-- Another shape. -/
theorem customImport_shape {t : Tr K X} {R : σ → Prop} {s s1 : σ} (h1 : o.next s = .ok (.DocStart, s1)) (h2 : Presents o sem t R s1) (v : V)
    (ht : ∀ x, t ≠ .scalar x) : customImport S o (.one v) (PI.init s) = throwStd := by
  obtain ⟨s2, e2, h3⟩ := h2
  rw [customImport, gets_next o h1]
  simp only [Res.ok_bind]
  rw [if_neg (by simp), streamedRead, customScan, gets_next o e2]
  simp only [Res.ok_bind]
  rw [if_pos]
  · rfl
  · cases t with
    | scalar x => exact absurd rfl (ht x)
    | _ => simp [Tr.tok]

end

section
variable {V : Type} (S : Streamed V)

/-- `S` reads back what it has written. -/
theorem read_tree {K X : Type} {raw : X → Option Bytes} {f : V → X} {x y : CVal V} (hu : CVal.All (Streamed.Undoes S) x) (hp : CVal.Place x y)
    (hr : CVal.All (fun v => raw (f v) = some (S.put v)) x) : CVal.read (K := K) S raw y (CVal.tree f x) = some x := by
  cases x with
  | one v =>
    cases y with
    | vec _ => exact hp.elim
    | one w =>
      show (raw (f v)).map _ = _
      rw [show raw (f v) = _ from hr]
      show some (CVal.one (S.get (S.put v) w).1) = _
      rw [show S.get (S.put v) w = _ from hu w]
  | vec vs =>
    cases y with
    | one _ => exact hp.elim
    | vec ws =>
      obtain rfl : ws = [] := hp
      have : rawTexts (K := K) raw (vs.map fun v => .scalar (f v)) = some (vs.map S.put) := by
        have hr : ∀ v ∈ vs, raw (f v) = some (S.put v) := hr
        clear hu
        rename_i hr'
        clear hr'
        induction vs with
        | nil => rfl
        | cons v vs ih => simp [rawTexts, hr v (by simp), ih (fun v hv => hr v (by simp [hv]))]
      show (rawTexts raw _).map _ = _
      rw [this]
      have hu : ∀ v ∈ vs, ∀ old, S.get (S.put v) old = (v, true) := hu
      simp only [Option.map_some, List.map_map, List.nil_append]
      congr 2
      conv => rhs; rw [← List.map_id vs]
      exact List.map_congr_left fun v hv => by simp [hu v hv]

/-! ### Import -/

theorem jsonCustomImport_doc {conv : Bool} {v : JTree} {t : Bytes} (hd : JDoc codePair v t) {x y : CVal V} (hy : CVal.read S (jsem conv).raw x v = some y) :
    jsonCustomImport S conv x t = .ok y := by
  obtain ⟨w1, tv, w2, hw1, hw2, hv, rfl⟩ := hd
  obtain ⟨s1, h1, h2⟩ := doc_presents (conv := conv) hw1 hv (.of (valueEnds_ws hw2))
  obtain ⟨s', e, -⟩ := customImport_at S JsonP.ops (jsem conv) (s := JsonP.ofBytes (w1 ++ tv ++ w2) conv) h1 h2 hy
  rw [jsonCustomImport, e]
  rfl

theorem yamlCustomImport_doc {v : YTree} {x y : CVal V} (hy : CVal.read S ysem.raw x v = some y) (es : List YEv) :
    yamlCustomImport S x ([.streamStart, .docStart] ++ yevents v ++ .docEnd :: es) = .ok y := by
  obtain ⟨s1, h1, h2⟩ := ydoc_presents v es
  obtain ⟨s', e, -⟩ := customImport_at S YamlP.ops ysem h1 h2 hy
  rw [yamlCustomImport, e]
  rfl

theorem bsonCustomImport_doc {v : BTree} (h : Storable32 v) {x y : CVal V} (hy : CVal.read S bsem.raw x v = some y) (rest : Bytes) :
    bsonCustomImport S x (bdoc v ++ rest) = .ok y := by
  have hk : BsonP.rootKind v = customRoot x := by
    cases x <;> cases v <;> first | rfl | cases hy
  obtain ⟨s1, h1, h2⟩ := BsonP.bdoc_presents BsonP.skipper_ignore v h rest
  obtain ⟨s', e, -⟩ := customImport_at S BsonP.ops bsem h1 h2 hy
  rw [hk] at e
  rw [bsonCustomImport, e]
  rfl

theorem bsonStreamCustomImport_doc {v : BTree} (h : Storable32 v) {x y : CVal V} (hy : CVal.read S bsem.raw x v = some y) {rest : Bytes} {i : IStr}
    (hi : Stands (bdoc v ++ rest) i) : ∃ i', bsonStreamCustomImport S x i = .ok (y, i') ∧ Stands rest i' := by
  have hk : BsonP.rootKind v = customRoot x := by
    cases x <;> cases v <;> first | rfl | cases hy
  obtain ⟨s1, h1, h2⟩ := bson_stream_presents v h rest hi
  obtain ⟨s', e, hr⟩ := customImport_at S BsonS.ops bsem h1 h2 hy
  rw [hk] at e
  refine ⟨s'.inp, ?_, hr⟩
  rw [bsonStreamCustomImport, e]
  rfl

theorem jsonStreamCustomImport_doc {conv : Bool} {v : JTree} {w tv post : Bytes} (hw : Ws w) (hv : JText codePair v tv)
    (hp : Ends v post) (hn : ∀ x, v = .scalar x → isNum x = true → post ≠ []) {i : IStr} (hi : OkS (w ++ tv ++ post) i) {x y : CVal V}
    (hy : CVal.read S (jssem conv).raw x v = some y) :
    ∃ i', jsonStreamCustomImport S conv x i = .ok (y, i') ∧ OkS post i' := by
  have h0 : JsonS.ops.next (JsonS.ofStream i conv) = .ok (.DocStart, ⟨(JsonS.ofStream i conv).lex, ⟨.Done, .Init, [], true⟩⟩) := rfl
  have hpr := presents_stream true conv v tv hv ⟨.Done, .Init, [], true⟩ w post ⟨(JsonS.ofStream i conv).lex, ⟨.Done, .Init, [], true⟩⟩ (.init hw) (by
    cases v with
    | scalar x => exact ⟨hp, fun _ => hn x rfl⟩
    | _ => trivial) (stream_start (conv := conv) hi)
  obtain ⟨s', e, hr⟩ := customImport_at S JsonS.ops (jssem conv) (R := fun s => OkS post s.lex.inp) h0 (by
    obtain ⟨s2, e2, h3⟩ := hpr
    refine ⟨s2, e2, after_mono _ _ v ?_ h3⟩
    rintro ⟨l, c⟩ ⟨hc, h4, -⟩
    simp only at hc
    subst hc
    exact ⟨_, rfl, h4⟩) hy
  refine ⟨s'.lex.inp, ?_, hr⟩
  rw [jsonStreamCustomImport, e]
  rfl

/-! ### JSON export -/

open JPrint in
theorem indentSuffix_some {cfg : PrintCfg} {k : Nat} {b : Bool} {c : Byte} {ws : List Write} (h : indentSuffix cfg k b c = .ok ws) :
    ∃ w, Ws w ∧ ws = [.chars (w ++ [c])] := by
  unfold indentSuffix at h
  split at h
  · cases h; exact ⟨[], by intro c hc; simp at hc, rfl⟩
  · dsimp only at h
    split at h
    · rename_i hw
      cases h
      exact ⟨_, indent_ws _ (by omega), rfl⟩
    · cases h

open JPrint in
theorem customPuts_json (pr : Nat → Nat → Bytes) (cfg : PrintCfg) (f : V → JScalar) : ∀ (vs : List V) (st : PState) (ss : List PState), st.f1 = .Array →
    (∀ v ∈ vs, cleanKey (S.put v) ∧ ScalarText pr (f v) (S.put v)) →
    ∃ ws st' ps, customPutsJson S cfg vs (st :: ss) = .ok (ws, st' :: ss) ∧ st'.f1 = .Array ∧ (vs ≠ [] → st'.f2 = true) ∧
      JText.elems pr (vs.map fun v => .scalar (f v)) ps ∧ bytesOf ws = lead (decide (st.f0 ≠ 0)) ps
  | [], st, ss, ha, _ => ⟨[], st, [], rfl, ha, fun h => absurd rfl h, rfl, rfl⟩
  | v :: vs, st, ss, ha, hv => by
    obtain ⟨hc, ht⟩ := hv v (by simp)
    obtain ⟨ws, st1, w, e1, h0, h1, hw, hb⟩ := value_ok (ft := streamText) cfg ((escapeWrites (S.put v)).map .chars) st ss
    have h2 : st1.f2 = true := by
      have e1' := e1
      unfold value at e1'
      simp only [Res.ok.injEq, Prod.mk.injEq, List.cons.injEq] at e1'
      rw [← e1'.2.1]
    obtain ⟨ws2, st2, ps, e2, h3, h4, hps, hb2⟩ := customPuts_json pr cfg f vs st1 ss (h1.trans ha) (fun v hx => hv v (by simp [hx]))
    refine ⟨ws ++ ws2, st2, (w ++ S.put v) :: ps, ?_, h3, fun _ => ?_, ⟨w, S.put v, [], ps, hw, by intro c hc; simp at hc, ht, hps, by simp⟩, ?_⟩
    · simp only [customPutsJson, customPutJson, e1, e2, Res.ok_bind]
      rfl
    · by_cases hn : vs = []
      · subst hn
        cases e2
        exact h2
      · exact h4 hn
    · rw [escapeWrites_bytes, escape_clean hc] at hb
      rw [bytesOf, bytesIn_append, hb, show bytesIn streamText ws2 = _ from hb2, lead, sepOf, h0, ha]
      simp

open JPrint in
/-- The exported text is a document with the texts as scalars. -/
theorem customJson_doc (pr : Nat → Nat → Bytes) {cfg : PrintCfg} {f : V → JScalar} {x : CVal V} {t : Bytes}
    (hx : CVal.All (fun v => cleanKey (S.put v) ∧ ScalarText pr (f v) (S.put v)) x) (h : customJson S cfg x = .ok t) : JDoc pr (CVal.tree f x) t := by
  have no : Ws [] := by intro c hc; simp at hc
  cases x with
  | one v =>
    obtain ⟨hc, ht⟩ : _ ∧ _ := hx
    obtain ⟨ws, st1, w, e1, h0, h1, hw, hb⟩ := value_ok (ft := streamText) cfg ((escapeWrites (S.put v)).map .chars) ⟨0, .Value, false⟩ []
    rw [customJson, customPutJson, JPrint.init, e1] at h
    obtain rfl := Res.ok_inj h
    refine ⟨w, S.put v, [], hw, no, ht, ?_⟩
    rw [show bytesOf ws = _ from hb, escapeWrites_bytes, escape_clean hc]
    simp [sepOf]
  | vec vs =>
    obtain ⟨⟨wa, sa⟩, e1, h⟩ := Res.bind_ok h
    obtain ⟨wi, e1', e1⟩ := Res.bind_ok e1
    obtain ⟨w, hw, rfl⟩ := indentSuffix_some e1'
    cases e1
    obtain ⟨ws, st', ps, e2, h3, h4, hps, hb⟩ := customPuts_json S pr cfg f vs ⟨0, .Array, false⟩ [⟨0, .Value, false⟩] rfl hx
    dsimp only at h
    rw [e2] at h
    simp only [Res.ok_bind] at h
    obtain ⟨⟨wc, sc⟩, e3, h⟩ := Res.bind_ok h
    obtain rfl := Res.ok_inj h
    rw [step, if_neg (by simp [h3])] at e3
    dsimp only at e3
    obtain ⟨wi, e3', e3⟩ := Res.bind_ok e3
    cases e3
    have hb : bytesIn streamText ws = lead false ps := hb
    cases vs with
    | nil =>
      obtain rfl : ps = [] := hps
      obtain ⟨w3, hw3, rfl⟩ := indentSuffix_some e3'
      refine ⟨w, [0x5B] ++ w3 ++ [0x5D], [], hw, no, ⟨w3, hw3, rfl⟩, ?_⟩
      simp [bytesOf, Write.bytesIn, hb, lead, separator]
    | cons v vs =>
      rw [show decide (cfg.layout ≠ .Stream ∧ st'.f2 = false) = false by simp [h4 (by simp)]] at e3'
      cases e3'
      refine ⟨w, [0x5B] ++ commas ps ++ [0x5D], [], hw, no, ⟨ps, hps, rfl⟩, ?_⟩
      simp [bytesOf, Write.bytesIn, hb, lead_false, separator]

/-- Literals other than strings need no escapes. -/
theorem lit_clean {t : Bytes} {i : Int} (h : IntLit t i) : cleanKey t := by
  have hd : ∀ {t n}, Dec t n → cleanKey t := by
    intro t n h c hc
    have := (dec_iff.1 h).2.1 c hc
    simp only [isDigit, decide_eq_true_eq, UInt8.le_iff_toNat_le] at this
    refine ⟨by have := this.1; simp at this; omega, ?_, ?_⟩ <;> rintro rfl <;> simp at this
  cases h with
  | pos h => exact hd h
  | neg h =>
    intro c hc
    rcases List.mem_cons.1 hc with rfl | hc
    · decide
    · exact hd h c hc

theorem cleanKey_append {a b : Bytes} (ha : cleanKey a) (hb : cleanKey b) : cleanKey (a ++ b) := fun c hc =>
  (List.mem_append.1 hc).elim (ha c) (hb c)

theorem scalar_clean (pr : Nat → Nat → Bytes) {x : JScalar} {t : Bytes} (h : ScalarText pr x t) (hs : ∀ s, x ≠ .str s) : cleanKey t := by
  cases x with
  | null => cases h; decide
  | bool b => cases h; cases b <;> decide
  | int _ i => exact lit_clean h.2.1
  | frac _ d =>
    obtain ⟨-, ⟨a, i, f, e, ha, -, hf, he, -, rfl⟩, -⟩ := h
    have hd : ∀ {t}, Digits t → cleanKey t := fun ⟨n, h⟩ => lit_clean (.pos h)
    refine cleanKey_append (lit_clean ha) (cleanKey_append ?_ ?_)
    · rcases hf with rfl | ⟨ds, h, rfl⟩
      · intro c hc; cases hc
      · exact cleanKey_append (a := [0x2E]) (by decide) (hd h)
    · rcases he with rfl | ⟨e, sg, ds, he, hsg, h, rfl⟩
      · intro c hc; cases hc
      · refine cleanKey_append (a := [e]) ?_ (cleanKey_append ?_ (hd h))
        · rcases he with rfl | rfl <;> decide
        · rcases hsg with rfl | rfl | rfl <;> decide
  | str s => exact absurd rfl (hs s)

open JPrint in
theorem customJson_ok {cfg : PrintCfg} (hf : FitsW cfg 1) {f : V → JScalar} {x : CVal V}
    (hx : CVal.All (fun v => cleanKey (S.put v) ∧ ScalarText codePair (f v) (S.put v)) x) : ∃ t, customJson S cfg x = .ok t := by
  cases x with
  | one v =>
    obtain ⟨ws, st1, w, e1, -⟩ := value_ok (ft := streamText) cfg ((escapeWrites (S.put v)).map .chars) ⟨0, .Value, false⟩ []
    exact ⟨_, by rw [customJson, customPutJson, JPrint.init, e1]; rfl⟩
  | vec vs =>
    obtain ⟨ws, st', ps, e2, h3, h4, hps, hb⟩ := customPuts_json S codePair cfg f vs ⟨0, .Array, false⟩ [⟨0, .Value, false⟩] rfl hx
    obtain ⟨w1, -, e1⟩ := indentSuffix_ok (k := 0) hf (by omega) (decide (cfg.layout ≠ .Stream)) (by simp) 0x5B
    obtain ⟨w3, -, e3⟩ := indentSuffix_ok (k := 0) hf (by omega) (decide (cfg.layout ≠ .Stream ∧ st'.f2 = false)) (by simp +contextual) 0x5D
    refine ⟨bytesOf ((separator ⟨0, .Value, false⟩ false false ++ [.chars (w1 ++ [0x5B])]) ++ ws ++ [.chars (w3 ++ [0x5D])]), ?_⟩
    simp only [customJson, JPrint.init, step, List.length_nil, e1, Res.ok_bind, Res.pure_eq, e2, h3, e3]
    rfl

/-! ### BSON export -/

open BPrint in
theorem customPuts_bson : ∀ (vs : List V) (i : Nat) (is : List Nat) (cs : List BCont) (key : Bytes), ∃ ws,
    customPutsBson S vs ⟨.Array :: cs, i :: is, key⟩ = .ok (ws, ⟨.Array :: cs, (i + vs.length) :: is, key⟩) ∧
      bytesOf ws = bpayload.elems i (vs.map fun v => .scalar (.bin 0x80 (S.put v)))
  | [], i, is, cs, key => ⟨[], rfl, rfl⟩
  | v :: vs, i, is, cs, key => by
    obtain ⟨ws, e1, hb⟩ := heads_array cs i is key 0x05 (some (bytesOf [.chars (leBytes 4 ((S.put v).length : Nat)), .chars [0x80], .chars (S.put v)]).length)
    obtain ⟨ws2, e2, hb2⟩ := customPuts_bson vs (i + 1) is cs key
    refine ⟨ws ++ [.chars (leBytes 4 ((S.put v).length : Nat)), .chars [0x80], .chars (S.put v)] ++ ws2, ?_, ?_⟩
    · simp only [customPutsBson, customPutBson, element, e1, Res.ok_bind, e2, Res.pure_eq]
      rw [show i + 1 + vs.length = i + (v :: vs).length by simp; omega]
    · rw [bytesOf_append, bytesOf_append, hb, hb2]
      simp [bpayload.elems, btype, bpayload, BScalar.code, BScalar.payload, bytesOf, bytesIn, Write.bytesIn, leBytes_eq_le]

open BPrint in
theorem customSizes_eq : ∀ (vs : List V), (∀ v ∈ vs, ∃ f, S.size = some f ∧ f v = (S.put v).length) → ∃ n, customSizes S vs = .ok n ∧
    ∀ i, (bpayload.elems i (vs.map fun v => (.scalar (.bin 0x80 (S.put v)) : BTree))).length + keyLengths i = vs.length * 2 + keyLengths (i + vs.length) + n
  | [], _ => ⟨0, rfl, fun i => by simp [bpayload.elems]⟩
  | v :: vs, h => by
    obtain ⟨f, hf, hl⟩ := h v (by simp)
    obtain ⟨n, e, hn⟩ := customSizes_eq vs (fun v hv => h v (by simp [hv]))
    refine ⟨4 + 1 + (S.put v).length + n, ?_, fun i => ?_⟩
    · simp only [customSizes, customSize, hf, e, hl, Res.ok_bind, Res.pure_eq]
    · have := hn (i + 1)
      have hk := keyLengths_succ i
      have hlen : (BScalar.bin 0x80 (S.put v)).payload.length = 4 + 1 + (S.put v).length := by simp [BScalar.payload, le_length]; omega
      simp only [List.map_cons, bpayload.elems, btype, bpayload, List.length_append, List.length_cons, List.length_nil, hlen]
      rw [show i + 1 + vs.length = i + (vs.length + 1) by omega] at this
      omega

open BPrint in
theorem customBson_doc {x : CVal V} (h : CVal.All (fun v => ∃ f, S.size = some f ∧ f v = (S.put v).length) x) :
    customBson S x = .ok (bdoc (CVal.tree (fun v => .bin 0x80 (S.put v)) x)) := by
  cases x with
  | one v =>
    obtain ⟨f, hf, hl⟩ := h
    have hlen : (BScalar.bin 0x80 (S.put v)).payload.length = 4 + 1 + (S.put v).length := by simp [BScalar.payload, le_length]; omega
    simp only [customBson, customSize, hf, Res.ok_bind, customPutBson, element, init, writeKey, Res.pure_eq, closeDoc, if_true]
    congr 1
    simp only [CVal.tree, bdoc, framed]
    simp only [List.length_append, List.length_cons, List.length_nil, hlen]
    simp [bytesOf, bytesIn, Write.bytesIn, leBytes_eq_le, BScalar.code, BScalar.payload, le_length]
    congr 1
    omega
  | vec vs =>
    obtain ⟨n, e1, hn⟩ := customSizes_eq S vs h
    obtain ⟨ws, e2, hb⟩ := customPuts_bson S vs 0 [] [] []
    have hs := hn 0
    have hsz : sizeArray vs.length + n = 4 + (bpayload.elems 0 (vs.map fun v => (.scalar (.bin 0x80 (S.put v)) : BTree))).length + 1 := by
      rw [sizeArray, indexLoop_keys]
      simp [keyLengths] at hs ⊢
      omega
    simp only [customBson, e1, Res.ok_bind, step, init, writeKey, Res.pure_eq, e2, ne_eq, not_true_eq_false, if_false]
    congr 1
    rw [bytesOf_append, bytesOf_append, hb, hsz]
    simp [CVal.tree, bdoc, bpayload, framed, bytesOf, bytesIn, Write.bytesIn, leBytes_eq_le]

/-! ### YAML export -/

theorem customPuts_yaml {accepts : Bytes → Bool} : ∀ (vs : List V) (n : Nat) (ss : YPrint.State), (∀ v ∈ vs, accepts (S.put v) = true) →
    customPutsYaml S accepts vs ((n, .Array) :: ss) = .ok (yevents.elems (vs.map fun v => .scalar (S.put v)), (n + vs.length, .Array) :: ss)
  | [], n, ss, _ => rfl
  | v :: vs, n, ss, h => by
    have e := customPuts_yaml vs (n + 1) ss (fun v hv => h v (by simp [hv]))
    simp only [customPutsYaml, YPrint.emit, h v (by simp), if_true, Res.ok_bind, e, Res.pure_eq]
    rw [show n + 1 + vs.length = n + (v :: vs).length by simp; omega]
    rfl

theorem customYaml_doc {accepts : Bytes → Bool} {x : CVal V} (h : CVal.All (fun v => accepts (S.put v) = true) x) :
    customYaml S accepts x = .ok (ydoc (CVal.tree S.put x)) := by
  cases x with
  | one v => simp [customYaml, YPrint.emit, show accepts (S.put v) = true from h, CVal.tree, ydoc, yevents]
  | vec vs =>
    simp only [customYaml, YPrint.step, Res.ok_bind, customPuts_yaml S vs 0 _ h, CVal.tree, ydoc, yevents, Res.pure_eq]
    rfl

end
end Thors
