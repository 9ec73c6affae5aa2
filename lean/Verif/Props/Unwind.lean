import Verif.Proofs.UnwindText
import Verif.Proofs.UnwindYaml
import Verif.Props.Sink
import Verif.Props.ExportDefined
/-
C119: a failed export is reported, and the program goes on.
-/
namespace Thors.Props
open Thors Spec StrIn

/-- The caller learns of it: by an exception, or by the result. -/
def Told (f : Fate Unit) : Prop := (∃ e, f = .raised e) ∨ f = .returned false none

/-- What the handlers of the exporter make of an exception. -/
theorem handle_told (pol : Policy) (e : Exc) : Told (pol.handle (α := Unit) e).fate := by
  cases e with
  | deprecated => exact .inl ⟨_, rfl⟩
  | std =>
    unfold Policy.handle
    dsimp only
    split
    · exact .inl ⟨_, rfl⟩
    · exact .inr rfl
  | unknown =>
    unfold Policy.handle
    dsimp only
    split
    · exact .inl ⟨_, rfl⟩
    · exact .inr rfl

/-- The traversal of a value that is not exported. -/
theorem trace_fails {env : Env} {marker : Bytes} {sz : Ty → Val → Bool → Res Nat} {ty : Ty} {v : Val} {e : Exc} (h : ser env marker sz ty v = .throw e) :
    ∃ cs q, traceOf env marker sz ty v = ⟨cs, .threw e⟩ ∧ Place.walk cs ⟨[], true⟩ = some q := by
  rw [← trace_ser] at h
  obtain ⟨q, h1, -⟩ := trace_leads env marker sz v ty ⟨[], true⟩ rfl
  generalize traceOf env marker sz ty v = t at h h1
  obtain ⟨cs, st⟩ := t
  cases st with
  | done => cases h
  | threw e' => cases h; exact ⟨cs, q, rfl, h1⟩
  | undefined => cases h

/-- A JSON export fails in the serialiser only. -/
theorem json_fails {env : Env} {cfg : PrintCfg} {ty : Ty} {v : Val} {e : Exc} (h : jsonExport env cfg ty v = .throw e) : ser env cfg.marker noSize ty v = .throw e := by
  unfold jsonExport at h
  cases hs : ser env cfg.marker noSize ty v with
  | ub => rw [hs] at h; cases h
  | throw x => rw [hs] at h; cases h; rfl
  | ok cs =>
    obtain ⟨-, q, hq⟩ := ser_walks hs
    rw [hs, Res.ok_bind] at h
    rcases JPrint.run_open cfg cs ⟨[], true⟩ q JPrint.init hq (JPrint.open_init cfg) with ⟨hu, -⟩ | ⟨w, ss, hw, -⟩
    · rw [hu] at h; cases h
    · rw [hw] at h; cases h

/-- C119, JSON to a stream without exceptions: an export that fails is reported as the configuration asks, and the stream has failed. (Lines that are too long for the
indentation buffer are C39.) -/
theorem C119_json (env : Env) (cfg : PrintCfg) (pol : Policy) (ty : Ty) (v : Val) (e : Exc) (h : jsonExport env cfg ty v = .throw e) (o : OStream) (ho : o.throwing = false) :
    ((jsonSend env cfg pol ty v o).fate = (pol.handle e).fate ∧ (e ≠ .deprecated → (jsonSend env cfg pol ty v o).fail = true)) ∨
      ((jsonSend env cfg pol ty v o).fate = .ub ∧ cfg.layout ≠ .Stream) := by
  obtain ⟨cs, q, ht, hq⟩ := trace_fails (json_fails h)
  obtain ⟨k1, k2⟩ := play_quiet (JPrint.sturdy cfg) (.threw e) cs ⟨[], true⟩ q JPrint.init o hq (JPrint.open_init cfg) ho
  unfold jsonSend jsonSendT passThrough
  rw [ht]
  dsimp only at k1 k2 ⊢
  generalize play (onStream (JPrint.step cfg)) (.threw e) cs [] (JPrint.init, o) = r at k1 k2
  obtain ⟨E, t, o'⟩ := r
  dsimp only at k1 k2
  rcases k2 with rfl | ⟨rfl, hu⟩
  · refine .inl ?_
    have : inDtor (putDoc []) (Ended.threw e) (t, o') = (.threw e, t, o') := rfl
    dsimp only [Stop.ended]
    rw [this]
    cases e with
    | deprecated => exact ⟨rfl, fun x => absurd rfl x⟩
    | std => exact ⟨by simp [OStream.report, k1], fun _ => rfl⟩
    | unknown => exact ⟨by simp [OStream.report, k1], fun _ => rfl⟩
  · refine .inr ⟨rfl, ?_⟩
    rw [runCalls_json] at hu
    rcases JPrint.run_open cfg cs ⟨[], true⟩ q JPrint.init hq (JPrint.open_init cfg) with ⟨-, hs⟩ | ⟨w, ss, hw, -⟩
    · exact hs
    · rw [hw] at hu; cases hu

/-- C119, JSON: whatever the value, the program is not ended. -/
theorem C119_json_goes_on (env : Env) (cfg : PrintCfg) (pol : Policy) (ty : Ty) (v : Val) (o : OStream) (ho : o.throwing = false) :
    (jsonSend env cfg pol ty v o).fate ≠ .terminated := by
  obtain ⟨q, hq, -⟩ := trace_leads env cfg.marker noSize v ty ⟨[], true⟩ rfl
  obtain ⟨k1, k2⟩ := play_quiet (JPrint.sturdy cfg) (traceOf env cfg.marker noSize ty v).stop _ ⟨[], true⟩ q JPrint.init o hq (JPrint.open_init cfg) ho
  unfold jsonSend jsonSendT passThrough
  dsimp only at k1 k2 ⊢
  generalize play (onStream (JPrint.step cfg)) (traceOf env cfg.marker noSize ty v).stop (traceOf env cfg.marker noSize ty v).cmds [] (JPrint.init, o) = r at k1 k2
  obtain ⟨E, t, o'⟩ := r
  dsimp only at k1 k2
  rcases k2 with rfl | ⟨rfl, -⟩
  · generalize (traceOf env cfg.marker noSize ty v).stop = st
    cases st with
    | done => exact fun x => nomatch x
    | undefined => exact fun x => nomatch x
    | threw e =>
      cases e with
      | deprecated => exact fun x => nomatch x
      | std =>
        show (if o'.fail && o'.throwing then Fate.raised Exc.std else (pol.handle (α := Unit) .std).fate) ≠ _
        rw [k1, Bool.and_false, if_neg (by simp)]
        rcases handle_told pol .std with ⟨x, h⟩ | h <;> rw [h] <;> exact fun x => nomatch x
      | unknown =>
        show (if o'.fail && o'.throwing then Fate.raised Exc.std else (pol.handle (α := Unit) .unknown).fate) ≠ _
        rw [k1, Bool.and_false, if_neg (by simp)]
        rcases handle_told pol .unknown with ⟨x, h⟩ | h <;> rw [h] <;> exact fun x => nomatch x
  · exact fun x => nomatch x

/-- C119, JSON to a string: an export that fails is reported, and the string is what it was. One that succeeds is that of `jsonExportString`. -/
theorem C119_json_string (env : Env) (cfg : PrintCfg) (pol : Policy) (ty : Ty) (v : Val) (old : Bytes) :
    (∀ d, jsonExportString env cfg ty v old = .ok d → jsonSendString env cfg pol ty v old = (.returned true (some ()), d)) ∧
    (∀ e, jsonExport env cfg ty v = .throw e → jsonSendString env cfg pol ty v old = ((pol.handle e).fate, old) ∨
      (jsonSendString env cfg pol ty v old = (.ub, old) ∧ cfg.layout ≠ .Stream)) := by
  constructor
  · intro d h
    unfold jsonExportString at h
    obtain ⟨cmds, h1, h⟩ := Res.bind_eq_ok.1 h
    obtain ⟨⟨ws, ss⟩, h2, h⟩ := Res.bind_eq_ok.1 h
    obtain ⟨s1, h3, h⟩ := Res.bind_eq_ok.1 h
    obtain ⟨⟨ws', ss'⟩, h4, h⟩ := Res.bind_eq_ok.1 h
    obtain ⟨s2, h5, h⟩ := Res.bind_eq_ok.1 h
    obtain ⟨s3, h6, h⟩ := Res.bind_eq_ok.1 h
    cases h
    rw [h2] at h4
    cases h4
    unfold jsonSendString
    rw [(ser_walks h1).1]
    dsimp only at h3 h5 ⊢
    rw [play_text cmds [] JPrint.init ss ws _ s1 (by rw [runCalls_json]; exact h2) h3]
    dsimp only
    rw [play_text cmds [] JPrint.init ss ws _ s2 (by rw [runCalls_json]; exact h2) h5]
    dsimp only [StrOut.report]
    rw [h6]
  · intro e h
    obtain ⟨cs, q, ht, hq⟩ := trace_fails (json_fails h)
    obtain ⟨k1, k2, k3⟩ := play_counts (JPrint.sturdy cfg) (.threw e) cs ⟨[], true⟩ q JPrint.init (StrOut.ofString old (!cfg.exact)).preflightSize hq (JPrint.open_init cfg) rfl
    unfold jsonSendString
    rw [ht]
    dsimp only at k1 k2 k3 ⊢
    generalize play (onString (JPrint.step cfg)) (.threw e) cs [] (JPrint.init, (StrOut.ofString old (!cfg.exact)).preflightSize) = r at k1 k2 k3
    obtain ⟨E, t, s'⟩ := r
    dsimp only at k1 k2 k3
    have hd : s'.data = old := k2
    rcases k3 with rfl | ⟨rfl, hu⟩
    · refine .inl ?_
      simp only [Stop.ended, StrOut.report, StrOut.finalizePrint, k1, if_true, hd]
    · refine .inr ⟨by simp only [StrOut.report, hd], ?_⟩
      rw [runCalls_json] at hu
      rcases JPrint.run_open cfg cs ⟨[], true⟩ q JPrint.init hq (JPrint.open_init cfg) with ⟨-, hs⟩ | ⟨w, ss, hw, -⟩
      · exact hs
      · rw [hw] at hu; cases hu

/-- C119, BSON to a stream without exceptions: a null pointer is refused when the exporter is made; any other failure is reported, and the stream has failed. -/
theorem C119_bson (env : Env) (info : BPrint.SizeInfo) (marker : Bytes) (pol : Policy) (ty : Ty) (v : Val) (e : Exc) (h : bsonExport env info marker ty v = .throw e)
    (o : OStream) (ho : o.throwing = false) :
    bsonSend env info marker pol ty v o = .throw e ∨
      ∃ r, bsonSend env info marker pol ty v o = .ok r ∧ r.fate = (pol.handle e).fate ∧ (e ≠ .deprecated → r.fail = true) := by
  unfold bsonExport at h
  unfold bsonSend
  by_cases hr : bsonRefuses ty v = true
  · rw [if_pos hr] at h ⊢
    cases h
    exact .inl rfl
  rw [if_neg hr] at h ⊢
  have hs : ser env marker (fun t w p => BPrint.psize env marker info p t w) ty v = .throw e := by
    unfold bsonPass at h
    cases hs : ser env marker (fun t w p => BPrint.psize env marker info p t w) ty v with
    | ub => rw [hs] at h; cases h
    | throw x => rw [hs] at h; cases h; rfl
    | ok cs =>
      obtain ⟨-, q, hq⟩ := ser_walks hs
      rw [hs, Res.ok_bind] at h
      obtain ⟨w, st, hw, -⟩ := BPrint.run_open cs ⟨[], true⟩ q BPrint.init hq BPrint.open_init
      rw [hw] at h
      cases h
  obtain ⟨cs, q, ht, hq⟩ := trace_fails hs
  obtain ⟨k1, k2⟩ := play_quiet BPrint.sturdy (.threw e) cs ⟨[], true⟩ q BPrint.init o hq BPrint.open_init ho
  refine .inr ⟨_, rfl, ?_⟩
  unfold passThrough
  rw [ht]
  dsimp only at k1 k2 ⊢
  generalize play (onStream BPrint.step) (.threw e) cs [] (BPrint.init, o) = r at k1 k2
  obtain ⟨E, t, o'⟩ := r
  dsimp only at k1 k2
  rcases k2 with rfl | ⟨rfl, hu⟩
  · obtain ⟨o2, hp, hq2⟩ := putAll_quiet (BPrint.closeDoc (bsonBase env ty)) o' k1
    have : inDtor (putDoc (BPrint.closeDoc (bsonBase env ty))) (Ended.threw e) (t, o') = (.threw e, t, o2) := by
      unfold inDtor putDoc
      dsimp only
      rw [hp]
    dsimp only [Stop.ended]
    rw [this]
    cases e with
    | deprecated => exact ⟨rfl, fun x => absurd rfl x⟩
    | std => exact ⟨by simp [OStream.report, hq2], fun _ => rfl⟩
    | unknown => exact ⟨by simp [OStream.report, hq2], fun _ => rfl⟩
  · obtain ⟨w, st, hw, -⟩ := BPrint.run_open cs ⟨[], true⟩ q BPrint.init hq BPrint.open_init
    rw [runCalls_bson, hw] at hu
    cases hu

/-! ### YAML -/

/-- The printer after the start of the document. -/
def yamlBegun : YOut := ⟨[(0, .Value)], [.streamStart, .docStart], false⟩

/-- The part of `yamlSend` behind the start of the document. -/
theorem yamlSend_begun {refuse : List YEv → Bool} (accepts : Bytes → Bool) (env : Env) (marker : Bytes) (pol : Policy) (ty : Ty) (v : Val) (h0 : refuse [.streamStart] = false)
    (h1 : refuse [.streamStart, .docStart] = false) (E : Ended) (s : YOut)
    (hp : passThrough (YOut.call accepts refuse) (YOut.emit refuse .docEnd) (traceOf env marker noSize ty v) yamlBegun = (E, s)) :
    (E = .terminated → (yamlSend accepts refuse env marker pol ty v).1 = .terminated) ∧
    (∀ e, E = .threw e → (s.error = true ∨ refuse (s.events ++ [.streamEnd]) = false) → (yamlSend accepts refuse env marker pol ty v).1 = (pol.handle e).fate) ∧
    (E = .done → s.error = false → refuse (s.events ++ [.streamEnd]) = false →
      yamlSend accepts refuse env marker pol ty v = (.returned true (some ()), s.events ++ [.streamEnd])) := by
  unfold yamlSend yamlSendT
  rw [show YOut.emit refuse .streamStart ⟨[(0, .Value)], [], false⟩ = (.fine, ⟨[(0, .Value)], [.streamStart], false⟩) by simp [YOut.emit, h0]]
  dsimp only
  rw [show YOut.emit refuse .docStart ⟨[(0, .Value)], [.streamStart], false⟩ = (.fine, yamlBegun) by simp [YOut.emit, h1, yamlBegun]]
  dsimp only
  rw [hp]
  refine ⟨?_, ?_, ?_⟩
  · rintro rfl
    rfl
  · rintro e rfl hs
    unfold YOut.finish
    dsimp only
    cases he : s.error with
    | true => rfl
    | false =>
      have hr : refuse (s.events ++ [.streamEnd]) = false := by
        rcases hs with h | h
        · rw [he] at h; cases h
        · exact h
      simp only [inDtor, YOut.emit, hr]
      rfl
  · rintro rfl he hr
    unfold YOut.finish
    simp only [inDtor, YOut.emit, hr, he]
    rfl

/-- C119, YAML, exactly: an export whose texts are all taken succeeds. When it fails while a value is awaited, the program is ended; when it fails elsewhere, the failure
is reported as the configuration asks. -/
theorem C119_yaml {refuse : List YEv → Bool} (em : Emitter refuse) (accepts : Bytes → Bool) (env : Env) (marker : Bytes) (pol : Policy) (ty : Ty) (v : Val) (t : Traversal)
    (ht : t = cutAtText accepts (traceOf env marker noSize ty v)) :
    (t.stop = .done → ∃ es, yamlExport accepts env marker ty v = .ok es ∧ yamlSend accepts refuse env marker pol ty v = (.returned true (some ()), es)) ∧
    (∀ e, t.stop = .threw e → AwaitsValue t.cmds → (yamlSend accepts refuse env marker pol ty v).1 = .terminated) ∧
    (∀ e, t.stop = .threw e → ¬ AwaitsValue t.cmds → (yamlSend accepts refuse env marker pol ty v).1 = (pol.handle e).fate) := by
  have h0 : refuse [.streamStart] = false := emitter_takes em (a := [.docs]) rfl
  have h1 : refuse [.streamStart, .docStart] = false := emitter_takes em (a := [.node, .docEnd, .docs]) rfl
  have hk : YKinds [] yamlBegun := rfl
  have he : expects yamlBegun.events = some (awaiting [] true) := rfl
  obtain ⟨q, hq, hqd⟩ := trace_leads env marker noSize v ty ⟨[], true⟩ rfl
  have hser := trace_ser env marker noSize v ty
  -- the failure, wherever it is
  have failing : ∀ (e : Exc) (cs : List Cmd) (r : Place) (s s1 : YOut), Place.walk cs ⟨[], true⟩ = some r → YKinds r.blocks s →
      expects s.events = some (awaiting r.blocks r.awaits) → s1.state = s.state → s1.events = s.events →
      play (YOut.call accepts refuse) (traceOf env marker noSize ty v).stop (traceOf env marker noSize ty v).cmds [] yamlBegun = unwind (YOut.call accepts refuse) e r.blocks s1 →
      (AwaitsValue cs → (yamlSend accepts refuse env marker pol ty v).1 = .terminated) ∧
      (¬ AwaitsValue cs → (yamlSend accepts refuse env marker pol ty v).1 = (pol.handle e).fate) := by
    intro e cs r s s1 hw hk1 he1 hs hev hpl
    obtain ⟨ha, hb⟩ := walk_start hw
    have hk2 : YKinds r.blocks s1 := by unfold YKinds at hk1 ⊢; rw [hs]; exact hk1
    obtain ⟨f1, f2⟩ := fail_at (accepts := accepts) em e r hb s1 hk2 (by rw [hev]; exact he1)
    constructor
    · intro haw
      obtain ⟨s', hu | ⟨hu, s'', hd⟩⟩ := f1 (ha.2 haw)
      · exact (yamlSend_begun accepts env marker pol ty v h0 h1 .terminated s' (by unfold passThrough; rw [hpl, hu])).1 rfl
      · exact (yamlSend_begun accepts env marker pol ty v h0 h1 .terminated s'' (by unfold passThrough; rw [hpl, hu]; exact hd)).1 rfl
    · intro haw
      have hf : r.awaits = false := by
        cases hr : r.awaits with
        | false => rfl
        | true => exact absurd (ha.1 hr) haw
      obtain ⟨s', hu, s'', hd, hx, -⟩ := f2 hf
      refine (yamlSend_begun accepts env marker pol ty v h0 h1 (.threw e) s'' (by unfold passThrough; rw [hpl, hu]; exact hd)).2.1 e rfl (.inr ?_)
      exact emitter_takes em (a := []) (by rw [expects_snoc, hx]; rfl)
  subst ht
  unfold cutAtText
  generalize hT : traceOf env marker noSize ty v = T at hq hqd hser failing
  obtain ⟨cs, st⟩ := T
  dsimp only at hq hqd failing ⊢
  by_cases hall : cs.all (textTaken accepts) = true
  · rw [if_pos hall]
    dsimp only
    obtain ⟨s', g1, g2, g3, g4, g5⟩ := play_taken (accepts := accepts) em st cs [] ⟨[], true⟩ q yamlBegun hq hall hk he
    rw [List.append_nil] at g1
    refine ⟨?_, ?_, ?_⟩
    · rintro rfl
      have hqa := hqd rfl
      subst hqa
      obtain ⟨ss, hy⟩ := yrun_events accepts cs ⟨[], true⟩ _ yamlBegun hq hk hall
      refine ⟨[.streamStart, .docStart] ++ cs.map eventOf ++ [.docEnd, .streamEnd], ?_, ?_⟩
      · unfold yamlExport
        rw [← hser]
        show (do let (es, _) ← YPrint.run accepts cs [(0, .Value)]; _) = _
        rw [show YPrint.run accepts cs [(0, .Value)] = .ok (cs.map eventOf, ss) from hy]
        rfl
      · have hx : expects (s'.events ++ [.docEnd]) = some [.docs] := by rw [expects_snoc, g3]; rfl
        have := (yamlSend_begun accepts env marker pol ty v h0 h1 .done { s' with events := s'.events ++ [.docEnd] } (by
          unfold passThrough
          rw [hT]
          dsimp only
          rw [show play (YOut.call accepts refuse) .done cs [] yamlBegun = (.done, s') from g1]
          unfold inDtor YOut.emit
          dsimp only
          rw [emitter_takes em hx]
          rfl)).2.2 rfl g4 (emitter_takes em (a := []) (by rw [expects_snoc, hx]; rfl))
        rw [this, g5]
        simp [yamlBegun]
    · rintro e rfl haw
      exact (failing e cs q s' s' hq g2 g3 rfl rfl g1).1 haw
    · rintro e rfl haw
      exact (failing e cs q s' s' hq g2 g3 rfl rfl g1).2 haw
  · rw [if_neg hall]
    dsimp only
    have hsp : ∃ c rest, cs = cs.takeWhile (textTaken accepts) ++ c :: rest ∧ textTaken accepts c = false := by
      clear hq hqd hser failing hT
      induction cs with
      | nil => exact absurd rfl hall
      | cons c cs ih =>
        cases hc : textTaken accepts c with
        | false => exact ⟨c, cs, by rw [List.takeWhile_cons, hc]; rfl, hc⟩
        | true =>
          obtain ⟨c', rest, h1, h2⟩ := ih (by rw [List.all_cons, hc, Bool.true_and] at hall; exact hall)
          exact ⟨c', rest, by rw [List.takeWhile_cons, hc, if_pos rfl, List.cons_append, ← h1], h2⟩
    obtain ⟨c, rest, hcs, hc⟩ := hsp
    generalize hd : cs.takeWhile (textTaken accepts) = pre at hcs
    have hpre : pre.all (textTaken accepts) = true := by
      rw [← hd, List.all_eq_true]
      intro x hx
      exact List.all_eq_true.1 (List.all_takeWhile (p := textTaken accepts) (l := cs)) x hx
    rw [hcs, Place.walk_append] at hq
    cases hw : Place.walk pre ⟨[], true⟩ with
    | none => rw [hw] at hq; cases hq
    | some r =>
      rw [hw] at hq
      dsimp only [Option.bind] at hq
      rw [Place.walk] at hq
      cases hm : r.move c with
      | none => rw [hm] at hq; cases hq
      | some r' =>
        obtain ⟨s', g1, g2, g3, g4, g5⟩ := play_taken (accepts := accepts) em st pre (c :: rest) ⟨[], true⟩ r yamlBegun hw hpre hk he
        have hcall := yaml_call_text (refuse := refuse) hm hc g2
        have hpl : play (YOut.call accepts refuse) st cs [] yamlBegun = unwind (YOut.call accepts refuse) .std r.blocks { s' with error := true } := by
          rw [hcs]
          refine g1.trans ?_
          rw [play, hcall.1]
          dsimp only
          rw [hcall.2]
          rfl
        refine ⟨fun h => (nomatch h), ?_, ?_⟩
        · rintro e h haw
          cases h
          exact (failing .std pre r s' { s' with error := true } hw g2 g3 rfl rfl hpl).1 haw
        · rintro e h haw
          cases h
          exact (failing .std pre r s' { s' with error := true } hw g2 g3 rfl rfl hpl).2 haw

/-- C119, YAML: an export that fails is reported, or the program is ended. -/
theorem C119_yaml_partial {refuse : List YEv → Bool} (em : Emitter refuse) (accepts : Bytes → Bool) (env : Env) (marker : Bytes) (pol : Policy) (ty : Ty) (v : Val) :
    (∀ es, yamlExport accepts env marker ty v = .ok es → yamlSend accepts refuse env marker pol ty v = (.returned true (some ()), es)) ∧
    (∀ e, yamlExport accepts env marker ty v = .throw e →
      Told (yamlSend accepts refuse env marker pol ty v).1 ∨ (yamlSend accepts refuse env marker pol ty v).1 = .terminated) := by
  obtain ⟨h1, h2, h3⟩ := C119_yaml em accepts env marker pol ty v _ rfl
  have told : ∀ e, (cutAtText accepts (traceOf env marker noSize ty v)).stop = .threw e →
      Told (yamlSend accepts refuse env marker pol ty v).1 ∨ (yamlSend accepts refuse env marker pol ty v).1 = .terminated := by
    intro e h
    by_cases ha : AwaitsValue (cutAtText accepts (traceOf env marker noSize ty v)).cmds
    · exact .inr (h2 e h ha)
    · rw [h3 e h ha]
      exact .inl (handle_told pol e)
  have hser := trace_ser env marker noSize v ty
  have texts : ∀ cs, ser env marker noSize ty v = .ok cs → ∀ es ss, YPrint.run accepts cs [(0, .Value)] = .ok (es, ss) → cs.all (textTaken accepts) = true := by
    intro cs _
    have : ∀ (cs : List Cmd) (s0 : YPrint.State) es ss, YPrint.run accepts cs s0 = .ok (es, ss) → cs.all (textTaken accepts) = true := by
      intro cs
      induction cs with
      | nil => intros; rfl
      | cons c cs ih =>
        intro s0 es ss h
        unfold YPrint.run at h
        obtain ⟨⟨w, s1⟩, e1, h⟩ := Res.bind_eq_ok.1 h
        obtain ⟨⟨w', s2⟩, e2, h⟩ := Res.bind_eq_ok.1 h
        rw [List.all_cons, ih _ _ _ e2, Bool.and_true]
        have sc : ∀ t s0 x, YPrint.emit accepts t s0 = .ok x → accepts t = true := by
          intro t s0 x h
          cases s0 with
          | nil => cases h
          | cons a s0 =>
            obtain ⟨n, k⟩ := a
            rw [YPrint.emit] at h
            split at h
            · assumption
            · cases h
        cases c with
        | openMap n => rfl
        | openArray n => rfl
        | closeMap => rfl
        | closeArray => rfl
        | addKey k =>
          cases s0 with
          | nil => cases e1
          | cons a s0 =>
            obtain ⟨n, kd⟩ := a
            unfold YPrint.step at e1
            dsimp only at e1
            split at e1
            · cases e1
            · exact sc k _ _ e1
        | addInt _ i => exact sc _ _ _ e1
        | addFlt f x => exact sc _ _ _ e1
        | addBool b => exact sc _ _ _ e1
        | addStr t => exact sc _ _ _ e1
        | addNull => exact sc _ _ _ e1
    exact this cs [(0, .Value)]
  constructor
  · intro es h
    unfold yamlExport at h
    obtain ⟨cs, e1, h⟩ := Res.bind_eq_ok.1 h
    obtain ⟨⟨ws, ss⟩, e2, h⟩ := Res.bind_eq_ok.1 h
    have hall := texts cs e1 ws ss e2
    have hd : (cutAtText accepts (traceOf env marker noSize ty v)).stop = .done := by
      rw [(ser_walks e1).1]
      unfold cutAtText
      rw [if_pos hall]
    obtain ⟨es', k1, k2⟩ := h1 hd
    unfold yamlExport at k1
    rw [e1, Res.ok_bind, e2, Res.ok_bind] at k1
    rw [k2, Res.ok_inj (k1.symm.trans h)]
  · intro e h
    cases hst : (cutAtText accepts (traceOf env marker noSize ty v)).stop with
    | threw x => exact told x hst
    | done =>
      obtain ⟨es, k, -⟩ := h1 hst
      rw [k] at h
      cases h
    | undefined =>
      exfalso
      have hu : (traceOf env marker noSize ty v).stop = .undefined := by
        unfold cutAtText at hst
        split at hst
        · exact hst
        · cases hst
      have : ser env marker noSize ty v = .ub := by
        rw [← hser]
        unfold Traversal.toRes
        rw [hu]
      unfold yamlExport at h
      rw [this] at h
      cases h

/-- C119, YAML, when the document cannot be started: reported, and nothing else is handed to the emitter. -/
theorem C119_yaml_start {refuse : List YEv → Bool} (h0 : refuse [.streamStart] = false) (h1 : refuse [.streamStart, .docStart] = true) (accepts : Bytes → Bool) (env : Env)
    (marker : Bytes) (pol : Policy) (ty : Ty) (v : Val) : yamlSend accepts refuse env marker pol ty v = ((pol.handle .std).fate, [.streamStart, .docStart]) := by
  unfold yamlSend yamlSendT
  rw [show YOut.emit refuse .streamStart ⟨[(0, .Value)], [], false⟩ = (.fine, ⟨[(0, .Value)], [.streamStart], false⟩) by simp [YOut.emit, h0]]
  dsimp only
  rw [show YOut.emit refuse .docStart ⟨[(0, .Value)], [.streamStart], false⟩ = (.threw .std, ⟨[(0, .Value)], [.streamStart, .docStart], true⟩) by simp [YOut.emit, h1]]
  rfl

/-- non-vacuity: an emitter that takes one event. -/
example (pol : Policy) : yamlSend (fun _ => true) (fun h => decide (1 < h.length)) ⟨fun _ => .enum [], fun _ => .none, [], fun _ _ => false, fun _ _ _ => false⟩ [] pol .bool (.bool true) =
    ((pol.handle .std).fate, [.streamStart, .docStart]) := C119_yaml_start rfl rfl _ _ _ _ _ _

/-- Where no value is awaited the failure is reported. -/
theorem reported {refuse : List YEv → Bool} (em : Emitter refuse) (accepts : Bytes → Bool) (env : Env) (marker : Bytes) (pol : Policy) (ty : Ty) (v : Val) (e : Exc)
    (h : yamlExport accepts env marker ty v = .throw e) (hn : ¬ AwaitsValue (cutAtText accepts (traceOf env marker noSize ty v)).cmds) :
    Told (yamlSend accepts refuse env marker pol ty v).1 := by
  obtain ⟨h1, -, h3⟩ := C119_yaml em accepts env marker pol ty v _ rfl
  cases hst : (cutAtText accepts (traceOf env marker noSize ty v)).stop with
  | threw x => rw [h3 x hst hn]; exact handle_told pol x
  | done =>
    obtain ⟨es, k, -⟩ := h1 hst
    rw [k] at h
    cases h
  | undefined =>
    exfalso
    have hu : (traceOf env marker noSize ty v).stop = .undefined := by
      unfold cutAtText at hst
      split at hst
      · exact hst
      · cases hst
    have : ser env marker noSize ty v = .ub := by
      rw [← trace_ser]
      unfold Traversal.toRes
      rw [hu]
    unfold yamlExport at h
    rw [this] at h
    cases h

/-- C119, YAML to an output that takes nothing (a file that was not opened, a full disk): libyaml cannot write the document at its end, and the program is ended,
whatever is exported. -/
theorem C119_yaml_output_false {refuse : List YEv → Bool} (h0 : refuse [.streamStart] = false) (h1 : refuse [.streamStart, .docStart] = false)
    (hb : ∀ h, refuse (h ++ [.docEnd]) = true) (accepts : Bytes → Bool) (env : Env) (marker : Bytes) (pol : Policy) (ty : Ty) (v : Val) (hv : OfType env ty v) :
    (yamlSend accepts refuse env marker pol ty v).1 = .terminated := by
  obtain ⟨q, hq, -⟩ := trace_leads env marker noSize v ty ⟨[], true⟩ rfl
  have hst : (traceOf env marker noSize ty v).stop ≠ .undefined := by
    intro hu
    have hs := (ser_safe env marker noSize _ (fun _ _ _ _ => by simp [noSize]) v ty hv).ne_ub
    refine hs ?_
    rw [← trace_ser]
    unfold Traversal.toRes
    rw [hu]
  have closed : ∀ E s, ∃ s', inDtor (YOut.emit refuse .docEnd) E s = (.terminated, s') := by
    intro E s
    unfold inDtor YOut.emit
    rw [hb]
    exact ⟨_, rfl⟩
  obtain ⟨s', h | h | ⟨e, h⟩⟩ := play_any (accepts := accepts) (refuse := refuse) _ hst _ ⟨[], true⟩ q yamlBegun hq rfl
  · exact (yamlSend_begun accepts env marker pol ty v h0 h1 .terminated s' (by unfold passThrough; dsimp only at h; rw [h])).1 rfl
  · obtain ⟨s2, h2⟩ := closed .done s'
    exact (yamlSend_begun accepts env marker pol ty v h0 h1 .terminated s2 (by unfold passThrough; dsimp only at h; rw [h]; exact h2)).1 rfl
  · obtain ⟨s2, h2⟩ := closed (.threw e) s'
    exact (yamlSend_begun accepts env marker pol ty v h0 h1 .terminated s2 (by unfold passThrough; dsimp only at h; rw [h]; exact h2)).1 rfl

/-- Types without keys: numbers, strings, and arrays, optionals and pointers of them. -/
def Keyless : Ty → Prop
  | .int _ | .flt _ | .bool | .str => True
  | .seq _ t | .arr _ t | .opt t | .uptr t => Keyless t
  | _ => False

/-- Elements without keys. -/
theorem keyless_list (env : Env) (marker : Bytes) (t : Ty) (vs : List Val) (h : ∀ v ∈ vs, ∀ k, Cmd.addKey k ∉ (traceOf env marker noSize t v).cmds) (k : Bytes) :
    Cmd.addKey k ∉ (traceList env marker noSize t vs).cmds := by
  induction vs with
  | nil => exact List.not_mem_nil
  | cons v vs ih =>
    unfold traceList Traversal.andThen
    have hv := h v List.mem_cons_self k
    have ht := ih fun w hw => h w (List.mem_cons_of_mem _ hw)
    cases hs : (traceOf env marker noSize t v).stop with
    | done =>
      dsimp only
      intro hm
      rcases List.mem_append.1 hm with hm | hm
      · exact hv hm
      · exact ht hm
    | threw e => exact hv
    | undefined => exact hv

theorem keyless_block (b : Traversal) (hb : ∀ k, Cmd.addKey k ∉ b.cmds) (k : Bytes) : Cmd.addKey k ∉ (Traversal.block (.ok 0) .openArray .closeArray b).cmds := by
  unfold Traversal.block
  dsimp only
  cases hs : b.stop <;> dsimp only
  · intro hm
    rw [List.cons_append, List.mem_cons] at hm
    rcases hm with hm | hm
    · cases hm
    · rcases List.mem_append.1 hm with hm | hm
      · exact hb k hm
      · simp at hm
  · intro hm
    rcases List.mem_cons.1 hm with hm | hm
    · cases hm
    · exact hb k hm
  · intro hm
    rcases List.mem_cons.1 hm with hm | hm
    · cases hm
    · exact hb k hm

theorem keyless_trace (env : Env) (marker : Bytes) (ty : Ty) : ∀ (v : Val), Keyless ty → ∀ k, Cmd.addKey k ∉ (traceOf env marker noSize ty v).cmds := by
  induction ty with
  | int k => intro v _ k; cases v <;> simp [traceOf, Traversal.call]
  | flt k => intro v _ k; cases v <;> simp [traceOf, Traversal.call]
  | bool => intro v _ k; cases v <;> simp [traceOf, Traversal.call]
  | str => intro v _ k; cases v <;> simp [traceOf, Traversal.call]
  | seq sk t ih =>
    intro v hk k
    cases v with
    | list vs => unfold traceOf; exact keyless_block _ (keyless_list env marker t vs fun v _ => ih v hk) k
    | _ => simp [traceOf]
  | arr n t ih =>
    intro v hk k
    cases v with
    | list vs => unfold traceOf; exact keyless_block _ (keyless_list env marker t vs fun v _ => ih v hk) k
    | _ => simp [traceOf]
  | opt t ih =>
    intro v hk k
    cases v with
    | some w => unfold traceOf; exact ih w hk k
    | _ => simp [traceOf]
  | uptr t ih =>
    intro v hk k
    cases v with
    | ptr w => unfold traceOf; exact ih w hk k
    | _ => simp [traceOf, Traversal.call]
  | named i => intro v h; exact h.elim
  | smap t _ => intro v h; exact h.elim
  | mmap t _ => intro v h; exact h.elim
  | umap t _ => intro v h; exact h.elim
  | pptr b => intro v h; exact h.elim

/-- In an array no value is awaited. -/
theorem array_not_awaits (accepts : Bytes → Bool) (env : Env) (marker : Bytes) (sk : SeqKind) (t : Ty) (vs : List Val)
    (h : ∀ k, Cmd.addKey k ∉ (traceList env marker noSize t vs).cmds) : ¬ AwaitsValue (cutAtText accepts (traceOf env marker noSize (.seq sk t) (.list vs))).cmds := by
  have hk : ∀ k, Cmd.addKey k ∉ (traceOf env marker noSize (.seq sk t) (.list vs)).cmds := by
    unfold traceOf
    exact keyless_block _ h
  have hh : ∃ r, (traceOf env marker noSize (.seq sk t) (.list vs)).cmds = .openArray 0 :: r := by
    unfold traceOf Traversal.block noSize
    dsimp only
    split <;> exact ⟨_, rfl⟩
  generalize traceOf env marker noSize (.seq sk t) (.list vs) = T at hk hh
  obtain ⟨r, hr⟩ := hh
  have sub : ∀ c ∈ (cutAtText accepts T).cmds, c ∈ T.cmds := by
    unfold cutAtText
    intro c hc
    split at hc
    · exact hc
    · exact (List.takeWhile_sublist _).subset hc
  have ne : (cutAtText accepts T).cmds ≠ [] := by
    unfold cutAtText
    split
    · rw [hr]; exact fun x => nomatch x
    · dsimp only
      rw [hr, List.takeWhile_cons]
      exact fun x => nomatch x
  rintro (h | ⟨k, h⟩)
  · exact ne h
  · exact hk k (sub _ (List.mem_of_getLast? h))

/-- C119, YAML: arrays of things without keys, such as `std::vector<std::string>`: an export that fails is reported. -/
theorem C119_yaml_arrays {refuse : List YEv → Bool} (em : Emitter refuse) (accepts : Bytes → Bool) (env : Env) (marker : Bytes) (pol : Policy) (sk : SeqKind) (t : Ty)
    (vs : List Val) (ht : Keyless t) (e : Exc) (h : yamlExport accepts env marker (.seq sk t) (.list vs) = .throw e) :
    Told (yamlSend accepts refuse env marker pol (.seq sk t) (.list vs)).1 := by
  have hn := array_not_awaits accepts env marker sk t vs (keyless_list env marker t vs fun v _ => keyless_trace env marker t v ht)
  exact reported em accepts env marker pol _ _ e h hn

/-- C119, YAML: arrays of enumerations. -/
theorem C119_yaml_enums {refuse : List YEv → Bool} (em : Emitter refuse) (accepts : Bytes → Bool) (env : Env) (marker : Bytes) (pol : Policy) (sk : SeqKind) (i : Nat)
    (table : List (Int × Bytes)) (hi : env.defs i = .enum table) (es : List Int) (e : Exc) (h : yamlExport accepts env marker (.seq sk (.named i)) (.list (es.map .enum)) = .throw e) :
    Told (yamlSend accepts refuse env marker pol (.seq sk (.named i)) (.list (es.map .enum))).1 := by
  refine reported em accepts env marker pol _ _ e h (array_not_awaits accepts env marker sk _ _ (keyless_list env marker _ _ ?_))
  intro v hv k
  obtain ⟨n, -, rfl⟩ := List.mem_map.1 hv
  unfold traceOf
  rw [hi]
  dsimp only
  cases enumName table n <;> simp [Traversal.call]

/-- A class with a member that is a string. -/
def noteEnv : Env := ⟨fun _ => .cls ⟨.mk [] [⟨b!"text", b!"text", .str⟩] none, b!"Note", none⟩, fun _ => .obj [] [.str []], [], fun _ _ => false, fun _ _ _ => false⟩

/-- C119 is false for YAML: a string that is not UTF-8 (here the byte FF), member of a class: the program is ended, whatever the configuration says about
exceptions. -/
theorem C119_false {refuse : List YEv → Bool} (em : Emitter refuse) (accepts : Bytes → Bool) (hk : accepts b!"text" = true) (ht : accepts [0xFF] = false) (marker : Bytes)
    (pol : Policy) : yamlExport accepts noteEnv marker (.named 0) (.obj [] [.str [0xFF]]) = .throw .std ∧
      (yamlSend accepts refuse noteEnv marker pol (.named 0) (.obj [] [.str [0xFF]])).1 = .terminated := by
  have hT : cutAtText accepts (traceOf noteEnv marker noSize (.named 0) (.obj [] [.str [0xFF]])) = ⟨[.openMap 0, .addKey b!"text"], .threw .std⟩ := by
    have : traceOf noteEnv marker noSize (.named 0) (.obj [] [.str [0xFF]]) = ⟨[.openMap 0, .addKey b!"text", .addStr [0xFF], .closeMap], .done⟩ := rfl
    rw [this]
    simp [cutAtText, textTaken, yamlText, hk, ht, List.takeWhile_cons]
  constructor
  · show (do let (es, _) ← YPrint.run accepts [.openMap 0, .addKey b!"text", .addStr [0xFF], .closeMap] [(0, .Value)]; _) = _
    simp [YPrint.run, YPrint.step, YPrint.emit, hk, ht, throwStd]
  · exact (C119_yaml em accepts noteEnv marker pol _ _ _ hT.symm).2.1 .std rfl (.inr ⟨_, rfl⟩)

/-- An empty `std::optional` that is the whole value. -/
theorem C119_root_false {refuse : List YEv → Bool} (em : Emitter refuse) (accepts : Bytes → Bool) (env : Env) (marker : Bytes) (pol : Policy) (t : Ty) :
    yamlExport accepts env marker (.opt t) .none = .throw .std ∧ (yamlSend accepts refuse env marker pol (.opt t) .none).1 = .terminated := by
  refine ⟨rfl, (C119_yaml em accepts env marker pol _ _ ⟨[], .threw .std⟩ ?_).2.1 .std rfl (.inl rfl)⟩
  unfold traceOf cutAtText
  rfl

/-- non-vacuity: two emitters (Spec/YamlEvents.lean), and an array with a string that is not taken. -/
example (pol : Policy) : Told (yamlSend (fun t => t ≠ [0xFF]) (fun h => decide (h.getLast? = some .docEnd ∧ expects h = none)) noteEnv [] pol (.vec .str) (.list [.str b!"a", .str [0xFF]])).1 :=
  C119_yaml_arrays emitter_late _ noteEnv [] pol .back .str _ trivial .std rfl
example : yamlSend (fun t => t ≠ [0xFF]) (fun h => decide (expects h = none)) noteEnv [] ⟨true, true, true⟩ (.vec .str) (.list [.str b!"a", .str [0xFF]]) =
    (.returned false none, [.streamStart, .docStart, .seqStart, .scalar b!"a", .seqEnd, .docEnd]) := by decide +kernel
example (pol : Policy) : (yamlSend (fun t => t ≠ [0xFF]) (fun h => decide (expects h = none)) noteEnv [] pol (.named 0) (.obj [] [.str [0xFF]])).1 = .terminated :=
  (C119_false emitter_prompt _ rfl rfl [] pol).2

/-- non-vacuity: an enumeration value without a name, in an array after one that has one. -/
example : jsonExport switchEnv {} (.vec (.named 0)) switches = .throw .std ∧
    jsonSend switchEnv {} ⟨true, true, true⟩ (.vec (.named 0)) switches { data := b!"x", room := 100 } = ⟨.returned false none, b!"x\n[\"On\"]", true⟩ ∧
    jsonSendString switchEnv {} ⟨true, true, true⟩ (.vec (.named 0)) switches b!"old" = (.returned false none, b!"old") := by decide +kernel

/-- non-vacuity, BSON: an empty optional in an array. The array is left open. -/
example : bsonExport noteEnv bInfo [] (.vec (.opt .bool)) (.list [.some (.bool true), .none]) = .throw .std ∧
    bsonSend noteEnv bInfo [] ⟨true, true, true⟩ (.vec (.opt .bool)) (.list [.some (.bool true), .none]) { data := [], room := 100 } =
      .ok ⟨.returned false none, [12, 0, 0, 0, 0x08, 0x30, 0, 1, 0], true⟩ := by decide +kernel

/-- non-vacuity: an output that takes nothing. -/
example (pol : Policy) : (yamlSend (fun _ => true) (fun h => decide (h.getLast? = some .docEnd)) noteEnv [] pol .bool (.bool true)).1 = .terminated :=
  C119_yaml_output_false rfl rfl (fun h => by simp) _ _ _ _ _ _ trivial

end Thors.Props
