import Verif.Props.Unwind
/-
C120: what a failed export leaves on a stream.
-/
namespace Thors.Props
open Thors Spec StrIn

/-- The blocks that are open after calls. -/
def blocksAfter (cs : List Cmd) (bs : List Blk) : List Blk := cs.foldl (fun bs c => c.blocks bs) bs

/-- An exception on its way does what the closing calls do. -/
theorem unwind_closers {σ : Type} (call : Cmd → σ → Went × σ) (e : Exc) (bs : List Blk) (s : σ) :
    (unwind call e bs s).2 = (play call .done (bs.map Blk.close) bs s).2 := by
  induction bs generalizing s with
  | nil => rfl
  | cons b bs ih =>
    rw [List.map_cons]
    unfold unwind play
    have hc : b.close.closes = true := by cases b <;> rfl
    have hb : b.close.blocks (b :: bs) = bs := by cases b <;> rfl
    rcases call b.close s with ⟨_ | _ | _, s'⟩
    · dsimp only
      rw [hb]
      exact ih s'
    · dsimp only
      rw [if_pos hc]
    · rfl

/-- A traversal that throws leaves what one leaves that stops there and closes its blocks. -/
theorem play_closers {σ : Type} (call : Cmd → σ → Went × σ) (e : Exc) (cs : List Cmd) (bs : List Blk) (s : σ) :
    (play call (.threw e) cs bs s).2 = (play call .done (cs ++ (blocksAfter cs bs).map Blk.close) bs s).2 := by
  induction cs generalizing bs s with
  | nil => exact unwind_closers call e bs s
  | cons c cs ih =>
    rw [List.cons_append]
    unfold play
    rcases call c s with ⟨_ | _ | _, s'⟩
    · exact ih (c.blocks bs) s'
    · rfl
    · rfl

/-- The walk knows the open blocks. -/
theorem walk_blocks (cs : List Cmd) (p q : Place) (h : Place.walk cs p = some q) : blocksAfter cs p.blocks = q.blocks := by
  induction cs generalizing p with
  | nil => cases h; rfl
  | cons c cs ih =>
    rw [Place.walk] at h
    obtain ⟨r, hr, h⟩ := Option.bind_eq_some_iff.1 h
    rw [← ih r h]
    show blocksAfter cs (c.blocks p.blocks) = _
    congr 1
    obtain ⟨bs, w⟩ := p
    cases c <;> simp only [Place.move] at hr <;> (repeat' split at hr) <;> cases hr <;> simp_all [Cmd.blocks, Place.after]

/-- Elements in front of one that throws at once. -/
theorem traceList_fails (env : Env) (marker : Bytes) (t : Ty) (vs us : List Val) (w : Val) (e : Exc) (hv : (traceList env marker noSize t vs).stop = .done)
    (hw : traceOf env marker noSize t w = ⟨[], .threw e⟩) :
    traceList env marker noSize t (vs ++ w :: us) = ⟨(traceList env marker noSize t vs).cmds, .threw e⟩ := by
  induction vs with
  | nil =>
    rw [List.nil_append]
    unfold traceList
    rw [hw]
    rfl
  | cons v vs ih =>
    rw [List.cons_append]
    unfold traceList at hv ⊢
    unfold Traversal.andThen at hv ⊢
    cases hs : (traceOf env marker noSize t v).stop with
    | done =>
      rw [hs] at hv
      dsimp only at hv ⊢
      rw [ih hv]
    | threw x => rw [hs] at hv; cases hv
    | undefined => rw [hs] at hv; cases hv

theorem runCalls_undefined {τ : Type} (step : Cmd → τ → Res (List Write × τ)) (cs ds : List Cmd) (t : τ) (h : runCalls step cs t = .ub) : runCalls step (cs ++ ds) t = .ub := by
  induction cs generalizing t with
  | nil => cases h
  | cons c cs ih =>
    rw [List.cons_append]
    unfold runCalls at h ⊢
    cases hc : step c t with
    | ub => rfl
    | throw e => rw [hc] at h; cases h
    | ok r =>
      obtain ⟨a, t'⟩ := r
      rw [hc, Res.ok_bind] at h
      rw [Res.ok_bind]
      dsimp only at h ⊢
      cases hr : runCalls step cs t' with
      | ub => rw [ih t' hr]; rfl
      | throw e => rw [hr] at h; cases h
      | ok r => rw [hr] at h; cases h

/-- What the exporter of a sequence has written when an element throws: exactly the document of the sequence that ends before this element. -/
theorem array_remains (env : Env) (cfg : PrintCfg) (pol : Policy) (sk : SeqKind) (t : Ty) (vs us : List Val) (w : Val) (e : Exc) (text : Bytes)
    (hv : jsonExport env cfg (.seq sk t) (.list vs) = .ok text) (hw : traceOf env cfg.marker noSize t w = ⟨[], .threw e⟩)
    (o : OStream) (ho : o.fail = false) (hq : o.throwing = false) :
    (jsonSend env cfg pol (.seq sk t) (.list (vs ++ w :: us)) o).data = o.data ++ text.take o.room ∧
      Told (jsonSend env cfg pol (.seq sk t) (.list (vs ++ w :: us)) o).fate := by
  have ha := (C93_json env cfg pol _ _ text hv o ho).data
  have hv' := hv
  unfold jsonExport at hv'
  obtain ⟨cmds, h1, hv'⟩ := Res.bind_eq_ok.1 hv'
  obtain ⟨⟨ws, ss⟩, h2, -⟩ := Res.bind_eq_ok.1 hv'
  obtain ⟨ht, q, hq0⟩ := ser_walks h1
  have hst : (traceList env cfg.marker noSize t vs).stop = .done := by
    unfold traceOf Traversal.block noSize at ht
    dsimp only at ht
    have := congrArg Traversal.stop ht
    cases hs : (traceList env cfg.marker (fun _ _ _ => .ok 0) t vs).stop with
    | done => exact hs
    | threw x => rw [hs] at this; cases this
    | undefined => rw [hs] at this; cases this
  have hcm : cmds = .openArray 0 :: (traceList env cfg.marker noSize t vs).cmds ++ [.closeArray] := by
    have hc := congrArg Traversal.cmds ht
    unfold traceOf Traversal.block at hc
    rw [hst] at hc
    exact hc.symm
  have hf : traceOf env cfg.marker noSize (.seq sk t) (.list (vs ++ w :: us)) = ⟨.openArray 0 :: (traceList env cfg.marker noSize t vs).cmds, .threw e⟩ := by
    unfold traceOf
    rw [traceList_fails env cfg.marker t vs us w e hst hw]
    rfl
  obtain ⟨r, hr, hrd⟩ := traceList_leads env cfg.marker noSize vs t []
  have hrr := hrd hst
  subst hrr
  have hwalk : Place.walk (.openArray 0 :: (traceList env cfg.marker noSize t vs).cmds) ⟨[], true⟩ = some ⟨[.array], false⟩ := hr
  have hb : (blocksAfter (.openArray 0 :: (traceList env cfg.marker noSize t vs).cmds) []).map Blk.close = [.closeArray] := by
    have := walk_blocks _ _ _ hwalk
    dsimp only at this
    rw [this]
    rfl
  have hpc := play_closers (onStream (JPrint.step cfg)) e (.openArray 0 :: (traceList env cfg.marker noSize t vs).cmds) [] (JPrint.init, o)
  rw [hb, ← hcm] at hpc
  obtain ⟨k1, k2⟩ := play_quiet (JPrint.sturdy cfg) (.threw e) _ ⟨[], true⟩ _ JPrint.init o hwalk (JPrint.open_init cfg) hq
  have hd : (jsonSend env cfg pol (.seq sk t) (.list vs) o).data = (play (onStream (JPrint.step cfg)) .done cmds [] (JPrint.init, o)).2.2.data := by
    unfold jsonSend jsonSendT passThrough
    rw [ht]
    dsimp only
    rcases play (onStream (JPrint.step cfg)) .done cmds [] (JPrint.init, o) with ⟨_ | x | _ | _, t', o'⟩
    · rfl
    · cases x <;> rfl
    · rfl
    · rfl
  have hu : (play (onStream (JPrint.step cfg)) (.threw e) (.openArray 0 :: (traceList env cfg.marker noSize t vs).cmds) [] (JPrint.init, o)).1 = .threw e := by
    rcases k2 with k2 | ⟨-, hub⟩
    · exact k2
    · exfalso
      rw [runCalls_json] at hub
      have h3 : JPrint.run cfg (.openArray 0 :: (traceList env cfg.marker noSize t vs).cmds ++ [.closeArray]) JPrint.init = .ok (ws, ss) := by rw [← hcm]; exact h2
      rw [← runCalls_json] at hub
      rw [← runCalls_json, runCalls_undefined _ _ _ _ hub] at h3
      cases h3
  rw [← ha, hd]
  unfold jsonSend jsonSendT passThrough
  rw [hf]
  dsimp only at k1 hu hpc ⊢
  generalize play (onStream (JPrint.step cfg)) (.threw e) (.openArray 0 :: (traceList env cfg.marker noSize t vs).cmds) [] (JPrint.init, o) = R at k1 hu hpc
  obtain ⟨E, t', o'⟩ := R
  dsimp only at k1 hu hpc
  subst hu
  have hD : inDtor (putDoc []) (Ended.threw e) (t', o') = (.threw e, t', o') := rfl
  rw [← hpc]
  dsimp only
  rw [hD]
  refine ⟨by cases e <;> rfl, ?_⟩
  cases e with
  | deprecated => exact .inl ⟨_, rfl⟩
  | std => simpa [OStream.report, k1] using handle_told pol .std
  | unknown => simpa [OStream.report, k1] using handle_told pol .unknown

/-- C120 is false, in general: exporting enumerators of which one has no name leaves exactly the document of those in front of it. -/
theorem C120_enums_false (env : Env) (cfg : PrintCfg) (pol : Policy) (sk : SeqKind) (i : Nat) (table : List (Int × Bytes)) (hi : env.defs i = .enum table) (es us : List Int)
    (n : Int) (hn : enumName table n = none) (text : Bytes) (hv : jsonExport env cfg (.seq sk (.named i)) (.list (es.map .enum)) = .ok text)
    (o : OStream) (ho : o.fail = false) (hq : o.throwing = false) (hr : text.length ≤ o.room) :
    (jsonSend env cfg pol (.seq sk (.named i)) (.list ((es ++ n :: us).map .enum)) o).data = o.data ++ text ∧
      Told (jsonSend env cfg pol (.seq sk (.named i)) (.list ((es ++ n :: us).map .enum)) o).fate := by
  have hw : traceOf env cfg.marker noSize (.named i) (.enum n) = ⟨[], .threw .std⟩ := by
    unfold traceOf
    rw [hi]
    dsimp only
    rw [hn]
  have h := array_remains env cfg pol sk (.named i) (es.map .enum) (us.map .enum) (.enum n) .std text hv hw o ho hq
  rw [List.take_of_length_le hr] at h
  rw [List.map_append, List.map_cons]
  exact h

/-- The same for optional elements: an empty one ends the document. -/
theorem C120_optional_false (env : Env) (cfg : PrintCfg) (pol : Policy) (sk : SeqKind) (t : Ty) (vs us : List Val) (text : Bytes)
    (hv : jsonExport env cfg (.seq sk (.opt t)) (.list vs) = .ok text) (o : OStream) (ho : o.fail = false) (hq : o.throwing = false) (hr : text.length ≤ o.room) :
    (jsonSend env cfg pol (.seq sk (.opt t)) (.list (vs ++ .none :: us)) o).data = o.data ++ text ∧
      Told (jsonSend env cfg pol (.seq sk (.opt t)) (.list (vs ++ .none :: us)) o).fate := by
  have h := array_remains env cfg pol sk (.opt t) vs us .none .std text hv (by unfold traceOf; rfl) o ho hq
  rw [List.take_of_length_le hr] at h
  exact h

/-- C120 is false: a consumer of the stream imports `["On"]`, and is told that all is well. -/
theorem C120_false (pol : Policy) : ∃ d, (jsonSend switchEnv {} pol (.vec (.named 0)) switches { data := [], room := 100 }).data = d ∧
    Told (jsonSend switchEnv {} pol (.vec (.named 0)) switches { data := [], room := 100 }).fate ∧
    (jsonExtract switchEnv ⟨.Exact, []⟩ ⟨true, true, true⟩ true (.vec (.named 0)) (.list []) d).fate = .returned true (some (.list [.enum 1])) := by
  obtain ⟨h1, h2⟩ := C120_enums_false switchEnv {} pol .back 0 [(1, b!"On")] rfl [1] [] 7 (by decide) b!"\n[\"On\"]" (by decide +kernel) { data := [], room := 100 } rfl rfl (by decide)
  have ht : JText codePair (.arr [.scalar (.str (Samples.jstr b!"On"))]) b!"[\"On\"]" := Samples.plain_text _ (by decide)
  have h3 := C38_blank_tail_accepted switchEnv ⟨.Exact, []⟩ ⟨true, true, true⟩ true _ b!"\n" _ [] (by simp [Ws]) ht trivial (.vec (.named 0)) (.list []) (.list [.enum 1]) rfl (by simp [blank])
  exact ⟨_, h1, h2, congrArg Report.fate h3⟩

/-- C120, what is proved: a string is left alone by an export that fails. -/
theorem C120_string_partial (env : Env) (cfg : PrintCfg) (pol : Policy) (ty : Ty) (v : Val) (old : Bytes) (e : Exc) (h : jsonExport env cfg ty v = .throw e) :
    (jsonSendString env cfg pol ty v old).2 = old := by
  rcases (C119_json_string env cfg pol ty v old).2 e h with h | ⟨h, -⟩ <;> rw [h]

/-- A class whose export fails is different: the name of the member that failed has no value, and this is not JSON. -/
example (pol : Policy) : (jsonSend ⟨fun i => if i = 0 then .enum [] else .cls ⟨.mk [] [⟨b!"mode", b!"mode", .named 0⟩] none, b!"C", none⟩, fun _ => .obj [] [.enum 0], [],
    fun _ _ => false, fun _ _ _ => false⟩ { layout := .Stream } pol (.named 1) (.obj [] [.enum 7]) { data := [], room := 100 }).data = b!"{\"mode\"}" := by rfl

/-- non-vacuity. -/
example (pol : Policy) : (jsonSendString switchEnv {} pol (.vec (.named 0)) switches b!"old").2 = b!"old" :=
  C120_string_partial switchEnv {} pol _ _ _ .std (by decide +kernel)
example (pol : Policy) : (jsonSend noteEnv {} pol (.vec (.opt .bool)) (.list [.some (.bool true), .none, .some (.bool false)]) { data := b!"x", room := 100 }).data = b!"x\n[true]" :=
  (C120_optional_false noteEnv {} pol .back .bool [.some (.bool true)] [.some (.bool false)] b!"\n[true]" (by decide +kernel) _ rfl rfl (by decide)).1

end Thors.Props
