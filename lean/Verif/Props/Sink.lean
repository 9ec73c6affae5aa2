import Verif.Model.Sink
import Verif.Proofs.Unwind
import Verif.Props.JsonCut
import Verif.Props.Bson
import Verif.Props.Import
/-
C93: exports to a stream that breaks down.
-/
namespace Thors.Props
open Thors Spec StrIn

theorem failed_putAll (ws : List Write) (s : OStream) (h : s.fail = true) (ht : (s.throwing && s.again) = false) : s.putAll ws = (s, false) := by
  induction ws with
  | nil => rfl
  | cons w ws ih => rw [OStream.putAll, OStream.put, if_pos h, ht]; exact ih

theorem putAll_throwing (ws : List Write) (s : OStream) : (s.putAll ws).1.throwing = s.throwing := by
  induction ws generalizing s with
  | nil => rfl
  | cons w ws ih =>
    rw [OStream.putAll]
    have : (s.put (w.bytesIn streamText)).1.throwing = s.throwing := by
      unfold OStream.put
      split
      · rfl
      · split <;> rfl
    cases hp : s.put (w.bytesIn streamText) with
    | mk s1 b =>
      rw [hp] at this
      cases b with
      | true => exact this
      | false => exact (ih s1).trans this

theorem putAll_bytes : ∀ (ws : List Write) (s : OStream), s.fail = false →
    ((s.putAll ws).1.data = s.data ++ (bytesOf ws).take s.room ∧ (s.putAll ws).1.fail = decide (s.room < (bytesOf ws).length) ∧
      (s.putAll ws).2 = (s.throwing && decide (s.room < (bytesOf ws).length)))
  | [], s, h => by simp [OStream.putAll, bytesOf, bytesIn, h]
  | w :: ws, s, h => by
    have hb : bytesOf (w :: ws) = w.bytesIn streamText ++ bytesOf ws := by simp [bytesOf, bytesIn]
    rw [OStream.putAll, OStream.put, if_neg (by simp [h]), hb]
    by_cases hl : (w.bytesIn streamText).length ≤ s.room
    · rw [if_pos hl]
      dsimp only
      obtain ⟨h1, h2, h3⟩ := putAll_bytes ws { s with data := s.data ++ w.bytesIn streamText, room := s.room - (w.bytesIn streamText).length } h
      rw [h1, h2, h3]
      dsimp only
      refine ⟨?_, ?_, ?_⟩
      · rw [List.take_append, List.take_of_length_le hl, List.append_assoc]
      · rw [List.length_append]; congr 1; simp only [eq_iff_iff]; omega
      · rw [List.length_append]; congr 2; simp only [eq_iff_iff]; omega
    · rw [if_neg hl]
      have hlt : s.room < (w.bytesIn streamText ++ bytesOf ws).length := by rw [List.length_append]; omega
      have ht : (w.bytesIn streamText ++ bytesOf ws).take s.room = (w.bytesIn streamText).take s.room := by
        rw [List.take_append, show s.room - (w.bytesIn streamText).length = 0 by omega]; simp
      rw [ht]
      have hlt' := hlt
      rw [List.length_append] at hlt'
      cases htw : s.throwing with
      | true => simp [hlt']
      | false =>
        dsimp only
        rw [failed_putAll ws _ rfl rfl]
        simp [hlt']

/-- What arrives when `full` is exported to the stream `s`: the beginning of it that fits, and the stream has failed
exactly if that is not all of it. The failure is also the result of the call. If the user has asked the stream for
exceptions, it is an exception or the end of the program (`C93_loud_false`). -/
structure Arrives (full : Bytes) (s : OStream) (r : Sent) : Prop where
  data : r.data = s.data ++ full.take s.room
  fail : r.fail = true ↔ s.room < full.length
  quiet : s.throwing = false → r.fate = .returned (decide (full.length ≤ s.room)) (some ())
  loud : s.throwing = true → full.length ≤ s.room → r.fate = .returned true (some ())
  lost : s.throwing = true → s.room < full.length → r.fate = .raised .std ∨ r.fate = .terminated

/-- A traversal that comes to its end on a stream that breaks down. -/
theorem send_arrives {τ : Type} {step : Cmd → τ → Res (List Write × τ)} {Inv : List Blk → τ → Prop} (S : Sturdy step Inv) (pol : Policy) (cs : List Cmd) (q : Place) (t t' : τ)
    (ws cw : List Write) (s : OStream) (hw : Place.walk cs ⟨[], true⟩ = some q) (hi : Inv [] t) (hr : runCalls step cs t = .ok (ws, t')) (h : s.fail = false) :
    Arrives (bytesOf (ws ++ cw)) s (OStream.report pol ((passThrough (onStream step) (putDoc cw) ⟨cs, .done⟩ (t, s)).1,
      (passThrough (onStream step) (putDoc cw) ⟨cs, .done⟩ (t, s)).2.2)) := by
  obtain ⟨h1, h2, h3⟩ := putAll_bytes (ws ++ cw) s h
  have h4 := putAll_throwing (ws ++ cw) s
  rw [ostream_putAll_append] at h1 h2 h3 h4
  unfold passThrough
  dsimp only
  cases hp : s.putAll ws with
  | mk s1 x =>
    obtain ⟨k1, k2⟩ := play_whole S cs ⟨[], true⟩ q t t' ws s s1 x hw hi hr hp
    rw [hp] at h1 h2 h3 h4
    cases x with
    | true =>
      obtain ⟨E, t'', e1, e2⟩ := k2 rfl
      dsimp only at h1 h2 h3 h4 e1
      rw [e1]
      have hf := putAll_broken ws s s1 hp
      rw [hf] at h2
      have hl : s.room < (bytesOf (ws ++ cw)).length := by simpa using h2.symm
      have ht : s.throwing = true := (Bool.and_eq_true_iff.1 h3.symm).1
      rcases e2 with rfl | rfl
      · have hp' : inDtor (putDoc cw) (.threw .std) (t'', s1) = (.threw .std, t'', s1) ∨ inDtor (putDoc cw) (.threw .std) (t'', s1) = (.terminated, t'', s1) := by
          have := putAll_failed cw s1 hf
          unfold inDtor putDoc
          dsimp only
          cases hq : s1.putAll cw with
          | mk s2 y =>
            rw [hq] at this
            dsimp only at this
            subst this
            cases y
            · exact .inl rfl
            · exact .inr rfl
        dsimp only
        rcases hp' with hp' | hp'
        · rw [hp']
          exact ⟨h1, ⟨fun _ => hl, fun _ => rfl⟩, by simp [ht], fun _ hc => absurd hc (by omega), fun _ _ => .inl (by simp [OStream.report, hf, h4, ht])⟩
        · rw [hp']
          exact ⟨h1, ⟨fun _ => hl, fun _ => hf⟩, by simp [ht], fun _ hc => absurd hc (by omega), fun _ _ => .inr rfl⟩
      · exact ⟨h1, ⟨fun _ => hl, fun _ => hf⟩, by simp [ht], fun _ hc => absurd hc (by omega), fun _ _ => .inr rfl⟩
    | false =>
      have e1 := k1 rfl
      dsimp only at h1 h2 h3 h4 e1
      rw [e1]
      dsimp only
      unfold inDtor putDoc
      dsimp only
      cases hq : s1.putAll cw with
      | mk s2 y =>
        rw [hq] at h1 h2 h3 h4
        dsimp only at h1 h2 h3 h4
        cases y with
        | true =>
          have hl : s.room < (bytesOf (ws ++ cw)).length := by
            exact of_decide_eq_true (Bool.and_eq_true_iff.1 h3.symm).2
          have ht : s.throwing = true := by
            exact (Bool.and_eq_true_iff.1 h3.symm).1
          exact ⟨h1, ⟨fun _ => hl, fun _ => h2.trans (decide_eq_true hl)⟩, by simp [ht], fun _ hc => absurd hc (by omega), fun _ _ => .inr rfl⟩
        | false =>
          refine ⟨h1, ⟨fun k => of_decide_eq_true (h2.symm.trans k), fun k => h2.trans (decide_eq_true k)⟩, fun _ => ?_, fun _ hc => ?_, fun ht hc => ?_⟩
          · show Fate.returned (!s2.fail) (some ()) = _
            rw [h2]
            congr 1
            by_cases hl : s.room < (bytesOf (ws ++ cw)).length
            · rw [decide_eq_true hl, decide_eq_false (show ¬ (bytesOf (ws ++ cw)).length ≤ s.room by omega)]
              rfl
            · rw [decide_eq_false hl, decide_eq_true (show (bytesOf (ws ++ cw)).length ≤ s.room by omega)]
              rfl
          · show Fate.returned (!s2.fail) (some ()) = _
            rw [h2]
            rw [decide_eq_false (show ¬ s.room < (bytesOf (ws ++ cw)).length by omega)]
            rfl
          · rw [ht, decide_eq_true hc] at h3
            cases h3

/-- The calls of a value that is exported. -/
theorem ser_walks {env : Env} {marker : Bytes} {sz : Ty → Val → Bool → Res Nat} {ty : Ty} {v : Val} {cmds : List Cmd} (h : ser env marker sz ty v = .ok cmds) :
    traceOf env marker sz ty v = ⟨cmds, .done⟩ ∧ ∃ q, Place.walk cmds ⟨[], true⟩ = some q := by
  rw [← trace_ser] at h
  obtain ⟨q, h1, -⟩ := trace_leads env marker sz v ty ⟨[], true⟩ rfl
  generalize traceOf env marker sz ty v = t at h h1
  obtain ⟨cs, st⟩ := t
  cases st with
  | done => cases h; exact ⟨rfl, q, h1⟩
  | threw e => cases h
  | undefined => cases h

/-- C93, JSON: the stream breaks down after any number of bytes. -/
theorem C93_json (env : Env) (cfg : PrintCfg) (pol : Policy) (ty : Ty) (v : Val) (full : Bytes) (hf : jsonExport env cfg ty v = .ok full) (s : OStream) (h : s.fail = false) :
    Arrives full s (jsonSend env cfg pol ty v s) := by
  unfold jsonExport at hf
  obtain ⟨cmds, h1, hf⟩ := Res.bind_eq_ok.1 hf
  obtain ⟨⟨ws, ss⟩, h2, hf⟩ := Res.bind_eq_ok.1 hf
  cases hf
  obtain ⟨ht, q, hq⟩ := ser_walks h1
  have := send_arrives (JPrint.sturdy cfg) pol cmds q JPrint.init ss ws [] s hq (JPrint.open_init cfg) (by rw [runCalls_json]; exact h2) h
  rw [List.append_nil] at this
  unfold jsonSend jsonSendT
  rw [ht]
  exact this

/-- C93, BSON. -/
theorem C93_bson (env : Env) (info : BPrint.SizeInfo) (marker : Bytes) (pol : Policy) (ty : Ty) (v : Val) (full : Bytes) (hf : bsonExport env info marker ty v = .ok full)
    (s : OStream) (h : s.fail = false) : ∃ r, bsonSend env info marker pol ty v s = .ok r ∧ Arrives full s r := by
  unfold bsonExport at hf
  unfold bsonSend
  by_cases hr : bsonRefuses ty v = true
  · rw [if_pos hr] at hf; cases hf
  · rw [if_neg hr] at hf ⊢
    obtain ⟨ws, h1, hf⟩ := Res.bind_eq_ok.1 hf
    cases hf
    unfold bsonPass at h1
    obtain ⟨cmds, h2, h1⟩ := Res.bind_eq_ok.1 h1
    obtain ⟨⟨ws', st⟩, h3, h1⟩ := Res.bind_eq_ok.1 h1
    cases h1
    obtain ⟨ht, q, hq⟩ := ser_walks h2
    refine ⟨_, rfl, ?_⟩
    rw [ht]
    exact send_arrives BPrint.sturdy pol cmds q BPrint.init st ws' _ s hq BPrint.open_init (by rw [runCalls_bson]; exact h3) h

/-- C93: a stream that has failed before takes nothing, and stays failed; provided that output to it does not throw. -/
theorem C93_failed_stream (env : Env) (cfg : PrintCfg) (pol : Policy) (ty : Ty) (v : Val) (full : Bytes) (hf : jsonExport env cfg ty v = .ok full) (s : OStream) (h : s.fail = true)
    (ht : (s.throwing && s.again) = false) :
    jsonSend env cfg pol ty v s = ⟨.returned false (some ()), s.data, true⟩ := by
  unfold jsonExport at hf
  obtain ⟨cmds, h1, hf⟩ := Res.bind_eq_ok.1 hf
  obtain ⟨⟨ws, ss⟩, h2, hf⟩ := Res.bind_eq_ok.1 hf
  obtain ⟨hc, q, hq⟩ := ser_walks h1
  have := (play_whole (JPrint.sturdy cfg) cmds ⟨[], true⟩ q JPrint.init ss ws s s false hq (JPrint.open_init cfg) (by rw [runCalls_json]; exact h2) (failed_putAll ws s h ht)).1 rfl
  unfold jsonSend jsonSendT passThrough
  rw [hc]
  dsimp only at this ⊢
  rw [this]
  simp only [inDtor, putDoc, OStream.putAll, OStream.report, h]
  rfl

/-- C93, JSON: what arrived of an export that broke off is not taken for a document, by any import, into any type; unless the whole
document is a number (`C93_false`), and in Weak mode under the conditions of C79. -/
theorem C93_json_not_mistaken_partial (env env' : Env) (pcfg : PrintCfg) (ty ty' : Ty) (v old : Val) (d : Doc) (cfg : Cfg) (pol : Policy) (conv : Bool) (room : Nat) (full : Bytes)
    (hd : docOf env pcfg.marker ty v = .ok d) (hk : AllKeys cleanKey d) (ha : AllScalars finiteAtom d) (hf : FitsIndent pcfg (nesting d))
    (hint : ∀ k n, d ≠ .scalar (.int k n)) (hflt : ∀ f x, d ≠ .scalar (.flt f x)) (hs : cfg.strict ≠ .Weak)
    (hfull : jsonExport env pcfg ty v = .ok full) (hroom : room < full.length) :
    ∀ (ppol : Policy) (x : _), (jsonExtract env' cfg pol conv ty' old (jsonSend env pcfg ppol ty v { data := [], room := room }).data).fate ≠ .returned true x := by
  intro ppol
  have h2 := C93_json env pcfg ppol ty v full hfull { data := [], room := room } rfl
  obtain ⟨w, tv, ws, ss, hw, ht, -, -, e⟩ := export_doc env pcfg ty v d hd hf
  rw [hfull] at e
  cases e
  rw [h2.data, List.nil_append]
  refine (C79_strict env' cfg hs pol conv ty' old (jtree streamText d) w tv _ ((w ++ tv).drop room) hw
    (ptext_jtext codePair d tv hk (AllScalars.imp (fun _ h => finite_ok h) d ha) ht) ?_ ?_ (List.take_append_drop _ _)).1
  · intro x hx
    cases d with
    | scalar a =>
      cases a with
      | int k n => exact absurd rfl (hint k n)
      | flt f x => exact absurd rfl (hflt f x)
      | null => cases hx; rfl
      | bool b => cases hx; rfl
      | str s => cases hx; rfl
    | arr ts => cases hx
    | obj ms => cases hx
  · intro e
    have := congrArg List.length e
    rw [List.length_drop] at this
    simp only [List.length_nil] at this
    omega

/-- C93, BSON: the same, without exceptions about numbers and modes. (That such an import may be undefined is C33.) -/
theorem C93_bson_not_mistaken_partial (env : Env) (info : BPrint.SizeInfo) (mk : Bytes) (cfg : Cfg) (ty : Ty) (v old : Val) (d : Doc) (hd : docOf env mk ty v = .ok d)
    (hz : SizeKnown env info false ty v) (ha : AllScalars plainAtom d) (ht : TopLevel env ty v) (hk : AllKeys (fun k => (0x00 : Byte) ∉ k) d)
    (hl : (bdoc (btree d)).length < 2 ^ 31) :
    ∃ full, bsonExport env info mk ty v = .ok full ∧ ∀ room < full.length,
      ∀ pol, ∃ r, bsonSend env info mk pol ty v { data := [], room := room } = .ok r ∧ r.fail = true ∧ ∀ w, bsonImport env cfg ty old r.data ≠ .ok w := by
  obtain ⟨full, h1, h2⟩ := C33_export_cut_partial env info mk cfg ty v old d hd hz ha ht hk hl
  refine ⟨full, h1, fun room hr pol => ?_⟩
  obtain ⟨r, h3, h4⟩ := C93_bson env info mk pol ty v full h1 { data := [], room := room } rfl
  refine ⟨r, h3, h4.fail.2 hr, ?_⟩
  rw [h4.data, List.nil_append]
  exact h2 room hr

/-- non-vacuity: a document of several lines, and a stream that takes ten bytes. -/
example (pol : Policy) : ∃ r, bsonSend bEnv bInfo [] pol (.named 1) bNode { data := [], room := 10 } = .ok r ∧ r.fail = true ∧ ∀ w, bsonImport bEnv ⟨.Weak, []⟩ (.named 1) (bEnv.dflt 1) r.data ≠ .ok w := by
  obtain ⟨full, h1, h2⟩ := C93_bson_not_mistaken_partial bEnv bInfo [] ⟨.Weak, []⟩ _ _ (bEnv.dflt 1) _ bNode_doc bNode_sizeKnown bNode_plain bNode_top bNode_keys bNode_length
  refine h2 10 ?_ pol
  have := bsonExport_doc bEnv bInfo [] _ _ _ bNode_doc bNode_sizeKnown bNode_plain bNode_top
  rw [this] at h1
  cases h1
  decide +kernel

/-- non-vacuity: what a reader sees. -/
example (pol : Policy) : jsonSend Samples.env {} pol (.vec .bool) (.list [.bool true, .bool false]) { data := b!"x", room := 5 } = ⟨.returned false (some ()), b!"x\n[tru", true⟩ := by
  rfl
example (pol : Policy) : jsonSend Samples.env {} pol .bool (.bool true) { data := b!"x", room := 2, throwing := true } = ⟨.raised .std, b!"xtr", true⟩ := by
  rfl

/-- C93 is false for streams that throw: when the stream breaks down while an array is open, the program is ended instead. The exception of the stream meets the
destructor that writes the closing bracket, which throws again. -/
theorem C93_loud_false (pol : Policy) :
    jsonSend Samples.env {} pol (.vec .bool) (.list [.bool true, .bool false]) { data := b!"x", room := 5, throwing := true } = ⟨.terminated, b!"x\n[tru", true⟩ := by
  rfl

/-- Also where a broken stream does not throw a second time: the breakdown at the closing bracket itself. -/
theorem C93_loud_bracket_false (pol : Policy) :
    jsonSend Samples.env {} pol (.vec .bool) (.list [.bool true, .bool false]) { data := b!"x", room := 13, throwing := true, again := false } =
      ⟨.terminated, b!"x\n[true, false", true⟩ := by
  rfl

/-- C93 for documents that are a number is false: the number `12` to a stream that takes one byte leaves `1`, which is a
document. -/
theorem C93_false (cfg : Cfg) (ppol pol : Policy) (hv : pol.validateNoTrailingData = false) :
    (jsonSend Samples.env {} ppol Samples.int32 (.int 12) { data := [], room := 1 }).fail = true ∧
      (jsonExtract Samples.env cfg pol true Samples.int32 (.int 0) (jsonSend Samples.env {} ppol Samples.int32 (.int 12) { data := [], room := 1 }).data).fate =
        .returned true (some (.int 1)) := by
  have e : intText 12 = b!"12" := by
    have := natText_decimal 12
    decide +kernel
  have hf : jsonExport Samples.env {} Samples.int32 (.int 12) = .ok b!"12" := by
    rw [show jsonExport Samples.env {} Samples.int32 (.int 12) = .ok (bytesOf [.chars [], .value (intText 12)]) from rfl, e]
    rfl
  have := C93_json Samples.env {} ppol _ _ _ hf { data := [], room := 1 } rfl
  refine ⟨this.fail.2 (by decide), ?_⟩
  rw [this.data]
  have := C38_unchecked_tail_ignored Samples.env cfg pol true (Samples.num 1) [] b!"1" [] Samples.ws_nil (Samples.plain_text _ (by decide)) trivial Samples.int32 (.int 0)
    (.int 1) rfl hv
  rw [List.nil_append, List.append_nil] at this
  exact (congrArg Report.fate this)

end Thors.Props
