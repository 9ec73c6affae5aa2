import Verif.Proofs.SharedBack
import Verif.Props.Shared
import Verif.Props.Yaml
/-
C110: shared pointers keep their sharing in every format, in strings and in streams.
-/
namespace Thors.Props
open Thors Spec StrIn BPrint

theorem usual_intmax : usual intmax := ⟨by decide, by decide⟩

section
variable (S : SEnv) (cell : Nat → STy) (H : Nat → SVal) (cfg : Cfg) (t : STy) (v : SVal)
  (hcy : NoCycles H v) (hs : Separate H v) (d : Doc) (done : List Nat)
include hcy hs

/-- C110 for JSON and strings: exporting a graph without floating point numbers into a string gives the text that is written to a
stream, although the second pass finds the table of objects that the first one filled. -/
theorem C110_json_string (pcfg : PrintCfg) (ht : STyped S pcfg.marker cell (fun _ => True) (fun a => atomFits pcfg.exact a ∧ notFloat a) t v)
    (hh : ∀ a, Reach H v a → STyped S pcfg.marker cell (fun _ => True) (fun a => atomFits pcfg.exact a ∧ notFloat a) (cell a) (H a))
    (h : SDoc S pcfg.marker H t v [] d done) (old : Bytes) :
    sjsonExportString S H pcfg t v old = sjsonExport S pcfg.marker H pcfg t v := by
  obtain ⟨sv, e, -, f⟩ := shared_exports ht hh hcy hs h
  obtain ⟨sv', e', -⟩ := fdoc_sser f sv (.refl _) (by simp [Covers])
  have hD : ∀ a, Reach H v a → STyped S pcfg.marker cell (fun _ => True) (fun a => atomFits pcfg.exact a ∧ notFloat a) (cell a) (H a) ∧ ∀ b ∈ targets (H a), Reach H v b :=
    fun a ha => ⟨hh a ha, fun b hb => .step ha hb⟩
  have ha : AllScalars (fun a => atomFits pcfg.exact a ∧ notFloat a) d := sdoc_scalars (fun a ha => ⟨⟨by decide, intmax_fits ha⟩, trivial⟩) ⟨trivial, trivial⟩ hD h ht (fun b hb => .direct hb)
  unfold sjsonExportString sjsonExport
  simp only [e, Res.ok_bind]
  cases hr : JPrint.run pcfg (cmdsOf d) JPrint.init with
  | ok p =>
    obtain ⟨ws, ss⟩ := p
    obtain ⟨s1, s2, s3, e1, e2, e3, -, e4, -⟩ := C24_two_passes ws old (!pcfg.exact) (doc_fits hr (AllScalars.imp (fun _ h => h.1) d ha))
    simp only [Res.ok_bind, e1, e', hr, e2, e3, e4, Res.pure_eq, doc_texts hr (AllScalars.imp (fun _ h => h.2) d ha)]
  | _ => rfl

section
variable (hg : GoodTypes S.env) (hnf : ∀ i c, S.env.defs i = .cls c → NoFilter c.traits) (hx : cfg.strict ≠ .Exact) (hc : GoodClasses S)
include hg hnf hx hc

/-- C110, for BSON and graphs without cycles. Let `d` be the document of the graph (`SDoc`: each object is written once). The bytes that
are written, into a stream or a string, are those of `d` as BSON, with all sizes right: that of a handle counts the data of its object
only if it is the handle that writes them. From these bytes, whatever follows them, in a string or at the front of a stream, the same
graph is imported, and nothing behind the document is read. Cycles and Exact mode are excluded as in C35, shared pointers at the top
to what is no document by `STopLevel` (`C110_false`). -/
theorem C110_bson_partial (info : SizeInfo) (hck : ∀ c, ∀ m ∈ S.classes c, (0x00 : Byte) ∉ m.1)
    (ht : STyped S cfg.marker cell (fun k => (0x00 : Byte) ∉ k) (fun a => plainAtom a ∧ doubleAtom a) t v)
    (hh : ∀ a, Reach H v a → STyped S cfg.marker cell (fun k => (0x00 : Byte) ∉ k) (fun a => plainAtom a ∧ doubleAtom a) (cell a) (H a))
    (hz : SSized S info false t v) (hhz : ∀ a, Reach H v a → SSized S info true (cell a) (H a)) (htop : STopLevel S t v)
    (h : SDoc S cfg.marker H t v [] d done) (hl : (bdoc (btree d)).length < 2 ^ 31) :
    sbsonExport S cfg.marker info H t v = .ok (bdoc (btree d)) ∧
    (∀ old, sbsonExportString S cfg.marker info H t v old = .ok (bdoc (btree d))) ∧
    (∀ post, ∃ v' st p, simportValue BsonP.ops S cfg t (PI.init (BsonP.ofBytes (sbase S t) (bdoc (btree d) ++ post))) = .ok ((v', st), p) ∧
      p.inner.inp.rest = post ∧ SameGraph H v v' st.heap) ∧
    (∀ post i, Stands (bdoc (btree d) ++ post) i → ∃ v' st p, simportValue BsonS.ops S cfg t (PI.init (BsonS.ofStream (sbase S t) i)) = .ok ((v', st), p) ∧
      Stands post p.inner.inp ∧ SameGraph H v v' st.heap) := by
  obtain ⟨sv, -, hr, f⟩ := shared_exports ht hh hcy hs h
  have hD : ∀ a, Reach H v a → STyped S cfg.marker cell (fun k => (0x00 : Byte) ∉ k) (fun a => plainAtom a ∧ doubleAtom a) (cell a) (H a) ∧ ∀ b ∈ targets (H a), Reach H v b :=
    fun a ha => ⟨hh a ha, fun b hb => .step ha hb⟩
  have hn : (0x00 : Byte) ∉ infoName := by decide
  have hda : (0x00 : Byte) ∉ infoData := by decide
  have hint : ∀ a : Nat, a < 2 ^ 63 → plainAtom (.int intmax a) ∧ doubleAtom (.int intmax a) := fun a _ => ⟨.inr rfl, trivial⟩
  have hk : AllKeys (fun k => (0x00 : Byte) ∉ k) d := sdoc_keys hn hda hck hD h ht (fun b hb => .direct hb)
  have ha : AllScalars (fun a => plainAtom a ∧ doubleAtom a) d := sdoc_scalars hint ⟨trivial, trivial⟩ hD h ht (fun b hb => .direct hb)
  obtain ⟨ws, hb, hw, hp⟩ := sbson_pass info ht (fun a ha => ⟨hh a ha, hhz a ha⟩) hz htop f h (AllScalars.imp (fun _ h => h.1) d ha)
  obtain ⟨sv1, e1, x1⟩ := hp [] nil_ext
  obtain ⟨sv2, e2, x2⟩ := hp sv1 x1
  obtain ⟨b1, b2⟩ := sbase_root h htop
  have hst : Storable32 (btree d) := ⟨bkeys d hk, bvalid d, hl⟩
  have F := bsonFaithful.weaken (ok1' := fun k => (0x00 : Byte) ∉ k) (ok2' := fun a => plainAtom a ∧ doubleAtom a) (fun _ _ => trivial) (fun _ h => h)
  refine ⟨?_, ?_, ?_, ?_⟩
  · rw [sbsonExport, b2, e1]
    simp [hb]
  · intro old
    rw [sbsonExportString, b2, e1]
    obtain ⟨s1, s2, s3, g1, g2, g3, -, g4, -⟩ := C24_two_passes ws old true (fun w hm => by obtain ⟨b, rfl⟩ := hw w hm; trivial)
    have e5 : bytesIn stringText ws = bytesOf ws := congrArg List.flatten (List.map_congr_left fun w hm => by obtain ⟨b, rfl⟩ := hw w hm; rfl)
    simp only [Res.ok_bind, Bool.false_eq_true, if_false, g1, e2, g2, g3, Res.pure_eq, g4, e5, hb]
  · intro post
    obtain ⟨s1, g1, g2⟩ := BsonP.bdoc_presents BsonP.skipper_ignore (btree d) hst post
    rw [btree_enc] at g2
    obtain ⟨v', st, s', e, q, g⟩ := shared_back (o := BsonP.ops) F hn hda hint ⟨trivial, trivial⟩ hg hnf rfl hx hc hck ht hh h hr g1 g2
    rw [b1]
    exact ⟨v', st, _, e, q.1, g⟩
  · intro post i hi
    obtain ⟨s1, g1, g2⟩ := bson_stream_presents (btree d) hst post hi
    rw [btree_enc] at g2
    obtain ⟨v', st, s', e, q, g⟩ := shared_back (o := BsonS.ops) F hn hda hint ⟨trivial, trivial⟩ hg hnf rfl hx hc hck ht hh h hr g1 g2
    rw [b1]
    exact ⟨v', st, _, e, q, g⟩

/-- C110 for YAML: the events are those of the document, and the same graph is made from them. `accepts` is what libyaml takes as the
text of a scalar. -/
theorem C110_yaml_partial (accepts : Bytes → Bool) (ht : STyped S cfg.marker cell (fun _ => True) yamlScalar t v)
    (hh : ∀ a, Reach H v a → STyped S cfg.marker cell (fun _ => True) yamlScalar (cell a) (H a)) (h : SDoc S cfg.marker H t v [] d done)
    (hk : AllKeys (fun k => accepts k = true) d) (ha : AllScalars (fun a => accepts (yatom a) = true) d) :
    syamlExport accepts S cfg.marker H t v = .ok (ydoc (ytree d)) ∧
    ∃ v' st p, simportValue YamlP.ops S cfg t (PI.init (YamlP.ofEvents (ydoc (ytree d)))) = .ok ((v', st), p) ∧ SameGraph H v v' st.heap := by
  obtain ⟨sv, e, hr, -⟩ := shared_exports ht hh hcy hs h
  have hyo : yOk = yamlScalar := by funext a; cases a <;> rfl
  refine ⟨?_, ?_⟩
  · obtain ⟨n', e2⟩ := yrun_doc d 0 .Value [] hk ha
    unfold syamlExport
    rw [e]
    simp [e2, ydoc]
  · obtain ⟨s1, g1, g2⟩ := ydoc_presents (ytree d) [.streamEnd]
    rw [ytree_enc] at g1 g2
    have F := hyo ▸ yamlFaithful
    obtain ⟨v', st, s', e, q, g⟩ := shared_back (o := YamlP.ops) F trivial trivial (fun a _ => by simp [yamlScalar, intmax]) trivial hg hnf rfl hx hc
      (fun _ _ _ => trivial) ht hh h hr g1 g2
    refine ⟨v', st, PI.init s', ?_, g⟩
    rw [← e, ydoc, ytree_enc]

/-- C110 for JSON in streams: what is written by the exporter is imported from a stream as the same graph, and the stream then stands
behind the text. -/
theorem C110_json_stream_partial (pcfg : PrintCfg) (hm : cfg.marker = pcfg.marker) (hck : ∀ c, ∀ m ∈ S.classes c, cleanKey m.1)
    (ht : STyped S pcfg.marker cell cleanKey (fun a => sixAtom a ∧ usualAtom a) t v)
    (hh : ∀ a, Reach H v a → STyped S pcfg.marker cell cleanKey (fun a => sixAtom a ∧ usualAtom a) (cell a) (H a))
    (h : SDoc S pcfg.marker H t v [] d done) (hf : FitsIndent pcfg (nesting d)) :
    ∃ text, sjsonExport S pcfg.marker H pcfg t v = .ok text ∧
      ∀ post i, mayFollow d post → OkS (text ++ post) i → ∃ v' st p, simportValue JsonS.ops S cfg t (PI.init (JsonS.ofStream i true)) = .ok ((v', st), p) ∧
        OkS post p.inner.lex.inp ∧ SameGraph H v v' st.heap := by
  obtain ⟨sv, e, hr, -⟩ := shared_exports ht hh hcy hs h
  have hD : ∀ a, Reach H v a → STyped S pcfg.marker cell cleanKey (fun a => sixAtom a ∧ usualAtom a) (cell a) (H a) ∧ ∀ b ∈ targets (H a), Reach H v b :=
    fun a ha => ⟨hh a ha, fun b hb => .step ha hb⟩
  have hn : cleanKey infoName := by decide
  have hda : cleanKey infoData := by decide
  have hk : AllKeys cleanKey d := sdoc_keys hn hda hck hD h ht (fun b hb => .direct hb)
  obtain ⟨ws, w0, w, tv, e1, -, -, hw, hpt, hby⟩ := run_doc streamText pcfg d ⟨0, .Value, false⟩ [] (by simpa using fits_width hf)
  have ha : AllScalars (fun a => sixAtom a ∧ usualAtom a) d :=
    sdoc_scalars (fun _ _ => ⟨trivial, usual_intmax⟩) ⟨trivial, trivial⟩ hD h ht (fun b hb => .direct hb)
  have hjt := ptext_jtext codePair d tv hk (AllScalars.imp (fun _ h => finite_ok (six_ok h.1)) d ha) hpt
  refine ⟨w ++ tv, ?_, ?_⟩
  · simp only [sjsonExport, e, Res.ok_bind]
    rw [show JPrint.init = [⟨0, .Value, false⟩] from rfl, e1]
    simp [hby, sepOf]
  · intro post i hp hi
    have g := presents_stream false true _ tv hjt ⟨.Done, .Init, [], true⟩ w post _ (.init hw) (by
      have := mayFollow_ends hp
      cases d with
      | scalar a => exact ⟨this, by simp⟩
      | _ => trivial) (stream_start (conv := true) hi)
    rw [jtree_enc] at g
    have F := (streamFaithful false).weaken (ok1' := cleanKey) (ok2' := fun a => sixAtom a ∧ usualAtom a) (fun _ _ => trivial) (fun _ h => h)
    obtain ⟨s2, g1, g2⟩ := g
    obtain ⟨v', st, s', e, q, g⟩ := shared_back (o := JsonS.ops) (s := JsonS.ofStream i true) (Q := AtJS true ctlEnd post) F hn hda (fun a _ => ⟨trivial, usual_intmax⟩)
      ⟨trivial, trivial⟩ hg hnf hm hx hc hck ht hh h hr rfl ⟨s2, g1, after_mono JsonS.ops _ _ (by
        rintro ⟨l, c⟩ ⟨h1, h2, h3⟩
        simp only at h1
        subst h1
        exact ⟨⟨l, ctlEnd⟩, rfl, rfl, h2, h3⟩) g2⟩
    exact ⟨v', st, _, e, q.inp, g⟩
end
end

/-! The sample of C35: `{x, y, nullptr, x}` with `y->next = x`. -/

def shInfo : SizeInfo := ⟨fun _ => false, fun _ => false⟩

/-- The document: the data of x and y are written once. -/
def shDoc : Doc := .arr [
  .obj [(infoName, .scalar (.int intmax (1000 : Nat))), (infoData, .obj [(b!"id", .scalar (.int ⟨32, true⟩ 1)), (b!"next", .scalar .null)])],
  .obj [(infoName, .scalar (.int intmax (2000 : Nat))), (infoData, .obj [(b!"id", .scalar (.int ⟨32, true⟩ 2)),
    (b!"next", .obj [(infoName, .scalar (.int intmax (1000 : Nat)))])])],
  .scalar .null,
  .obj [(infoName, .scalar (.int intmax (1000 : Nat)))]]

theorem shDoc_doc (mk : Bytes) : SDoc shEnv mk shHeap shTy shVal [] shDoc [2000, 1000] :=
  .list (.cons (.first (done' := []) (by decide) (.obj (.cons (.plain rfl) (.cons .null .nil))))
    (.cons (.first (done' := [1000]) (by decide) (.obj (.cons (.plain rfl) (.cons (.again (by decide)) .nil))))
      (.cons .null (.cons (.again (by decide)) .nil))))

theorem sh_noCycles : NoCycles shHeap shVal := by
  refine ⟨fun a => a, ?_⟩
  intro a b ha hb
  rcases shReach ha with rfl | rfl <;> simp [shHeap, targets, targets.all] at hb
  simp [hb]

theorem sh_separate : Separate shHeap shVal := by
  refine ⟨by decide, ?_, ?_, ?_⟩
  · intro a ha
    rcases shReach ha with rfl | rfl <;> decide
  · intro a ha
    rcases shReach ha with rfl | rfl <;> decide
  · intro a b ha hb
    rcases shReach ha with rfl | rfl <;> rcases shReach hb with rfl | rfl <;> decide

theorem sh_typed (mk : Bytes) (okKey : Bytes → Prop) (okAtom : Atom → Prop) : STyped shEnv mk (fun _ => .cls 0) okKey okAtom shTy shVal := by
  simp [shTy, shVal, STyped, STyped.all, snullable]

theorem sh_heap_typed (mk : Bytes) (okKey : Bytes → Prop) (okAtom : Atom → Prop) (h : ∀ i, 0 ≤ i → i ≤ 2 → okAtom (.int ⟨32, true⟩ i)) (a : Nat) (ha : Reach shHeap shVal a) :
    STyped shEnv mk (fun _ => .cls 0) okKey okAtom (.cls 0) (shHeap a) := by
  rcases shReach ha with rfl | rfl
  all_goals simp [shHeap, STyped, STyped.members, shEnv, Samples.int32, Storable, docOf, AllKeys, AllScalars, InRange, snullable]
  · exact h 1 (by decide) (by decide)
  · exact h 2 (by decide) (by decide)

theorem sh_heap_sized (a : Nat) (ha : Reach shHeap shVal a) : SSized shEnv shInfo true (.cls 0) (shHeap a) := by
  rcases shReach ha with rfl | rfl
  all_goals simp [shHeap, SSized, SSized.members, shEnv, Samples.int32, SizeKnown]

theorem shEnv_noNul : ∀ c, ∀ m ∈ shEnv.classes c, (0x00 : Byte) ∉ m.1 := by
  intro c m hm
  match c with
  | 0 =>
    simp only [shEnv, List.mem_cons, List.not_mem_nil, or_false] at hm
    rcases hm with rfl | rfl <;> decide
  | n + 1 => simp [shEnv] at hm

/-- C110 for the sample, in BSON. -/
example : ∃ bytes, sbsonExport shEnv [] shInfo shHeap shTy shVal = .ok bytes ∧ sbsonExportString shEnv [] shInfo shHeap shTy shVal b!"old" = .ok bytes ∧
    ∃ v' st p, simportValue BsonP.ops shEnv ⟨.Strict, []⟩ shTy (PI.init (BsonP.ofBytes .Array (bytes ++ b!"more"))) = .ok ((v', st), p) ∧
      p.inner.inp.rest = b!"more" ∧ SameGraph shHeap shVal v' st.heap := by
  obtain ⟨h1, h2, h3, -⟩ := C110_bson_partial shEnv (fun _ => .cls 0) shHeap ⟨.Strict, []⟩ shTy shVal sh_noCycles sh_separate shDoc _ rtEnv_good rtEnv_noFilter (by decide)
    shEnv_classes shInfo shEnv_noNul (sh_typed _ _ _) (sh_heap_typed _ _ _ fun _ _ _ => ⟨.inl (by decide), trivial⟩)
    (by simp [shTy, shVal, SSized, SSized.all]) sh_heap_sized trivial (shDoc_doc _) (by decide +kernel)
  exact ⟨_, h1, h2 _, h3 _⟩

/-- C110 for the sample, in YAML. -/
example : ∃ es, syamlExport (fun _ => true) shEnv [] shHeap shTy shVal = .ok es ∧
    ∃ v' st p, simportValue YamlP.ops shEnv ⟨.Strict, []⟩ shTy (PI.init (YamlP.ofEvents es)) = .ok ((v', st), p) ∧ SameGraph shHeap shVal v' st.heap := by
  obtain ⟨h1, h2⟩ := C110_yaml_partial shEnv (fun _ => .cls 0) shHeap ⟨.Strict, []⟩ shTy shVal sh_noCycles sh_separate shDoc _ rtEnv_good rtEnv_noFilter (by decide)
    shEnv_classes (fun _ => true) (sh_typed _ _ _) (sh_heap_typed _ _ _ fun _ _ _ => by simp [yamlScalar]) (shDoc_doc _)
    (by simp [shDoc, AllKeys, AllKeys.members, AllKeys.elems]) (by simp [shDoc, AllScalars, AllScalars.members, AllScalars.elems])
  exact ⟨_, h1, h2⟩

/-- C110 for the sample, in JSON: into a string, and from a stream. -/
example : ∃ text, sjsonExportString shEnv shHeap {} shTy shVal b!"old" = .ok text ∧
    ∀ i, OkS (text ++ b!"more") i → ∃ v' st p, simportValue JsonS.ops shEnv ⟨.Strict, []⟩ shTy (PI.init (JsonS.ofStream i true)) = .ok ((v', st), p) ∧
      OkS b!"more" p.inner.lex.inp ∧ SameGraph shHeap shVal v' st.heap := by
  have h1 := C110_json_string shEnv (fun _ => .cls 0) shHeap shTy shVal sh_noCycles sh_separate shDoc _ {} (sh_typed _ _ _)
    (sh_heap_typed _ _ _ fun i h1 h2 => ⟨⟨by decide, by simp [InRange]; omega⟩, trivial⟩) (shDoc_doc _) b!"old"
  obtain ⟨text, h2, h3⟩ := C110_json_stream_partial shEnv (fun _ => .cls 0) shHeap ⟨.Strict, []⟩ shTy shVal sh_noCycles sh_separate shDoc _ rtEnv_good rtEnv_noFilter (by decide)
    shEnv_classes {} rfl shEnv_keys (sh_typed _ _ _) (sh_heap_typed _ _ _ fun _ _ _ => ⟨trivial, by decide, by decide⟩) (shDoc_doc _) (fits_default [] false _ (by decide +kernel))
  exact ⟨text, h1.trans h2, fun i hi => h3 _ i (by simp [mayFollow, shDoc]) hi⟩

/-- A null pointer at the top is no document: BSON refuses it, and leaves the stream or string alone. -/
theorem C110_bson_null (S : SEnv) (marker : Bytes) (info : SizeInfo) (H : Nat → SVal) (t : STy) (u : Nat) (old : Bytes) :
    sbsonExport S marker info H (.shared t) (.handle u none) = throwStd ∧ sbsonExportString S marker info H (.shared t) (.handle u none) old = throwStd := ⟨rfl, rfl⟩

/-- C110 is false for shared pointers at the top to what is no document: `std::shared_ptr<std::vector<int>>` is exported as the
document `{sharedPtrName, data}`; the importer of that type takes the document for an array and rejects it. -/
theorem C110_false (cfg : Cfg) : ∃ (H : Nat → SVal) (t : STy) (v : SVal), STyped shEnv [] (fun _ => .vec (.plain Samples.int32)) cleanKey (fun a => plainAtom a ∧ doubleAtom a) t v ∧
    (∀ a, Reach H v a → STyped shEnv [] (fun _ => .vec (.plain Samples.int32)) cleanKey (fun a => plainAtom a ∧ doubleAtom a) (.vec (.plain Samples.int32)) (H a)) ∧
    NoCycles H v ∧ Separate H v ∧
    ∃ bytes, sbsonExport shEnv [] shInfo H t v = .ok bytes ∧ ∃ e, simportValue BsonP.ops shEnv cfg t (PI.init (BsonP.ofBytes (sbase shEnv t) bytes)) = .throw e := by
  let H : Nat → SVal := fun _ => .list [.plain (.int 1)]
  let v : SVal := .handle 11 (some 1000)
  let d : Doc := .obj [(infoName, .scalar (.int intmax (1000 : Nat))), (infoData, .arr [.scalar (.int ⟨32, true⟩ 1)])]
  have hr : ∀ a, Reach H v a → a = 1000 := by
    intro a h
    induction h with
    | direct h => simpa [v, targets] using h
    | step _ hb _ => simp [H, targets, targets.all] at hb
  have ht : STyped shEnv [] (fun _ => .vec (.plain Samples.int32)) cleanKey (fun a => plainAtom a ∧ doubleAtom a) (.shared (.vec (.plain Samples.int32))) v := by
    simp [v, STyped, snullable]
  have hh : ∀ a, Reach H v a → STyped shEnv [] (fun _ => .vec (.plain Samples.int32)) cleanKey (fun a => plainAtom a ∧ doubleAtom a) (.vec (.plain Samples.int32)) (H a) := by
    intro a _
    simp [H, STyped, STyped.all, Samples.int32, Storable, docOf, AllKeys, AllScalars, InRange, plainAtom, doubleAtom]
  have hcy : NoCycles H v := ⟨fun _ => 0, by intro a b _ hb; simp [H, targets, targets.all] at hb⟩
  have hs : Separate H v := ⟨by decide, fun a _ => by simp [H, locs, locs.all], fun a _ => by simp [H, locs, locs.all], fun a b _ _ _ => by simp [H, locs, locs.all]⟩
  have h : SDoc shEnv [] H (.shared (.vec (.plain Samples.int32))) v [] d [1000] :=
    .first (done' := []) (by decide) (.list (.cons (.plain rfl) .nil))
  obtain ⟨sv, -, -, f⟩ := shared_exports ht hh hcy hs h
  obtain ⟨sv', e, -⟩ := shared_serB shInfo ht (fun a ha => ⟨hh a ha, by simp [H, SSized, SSized.all, Samples.int32, SizeKnown]⟩) (by simp [v, SSized]) f [] nil_ext
  obtain ⟨ws, s, e2, hb⟩ := bson_run_doc d (by simp [d, AllScalars, AllScalars.members, AllScalars.elems, plainAtom, intmax])
  refine ⟨H, _, v, ht, hh, hcy, hs, bdoc (btree d), ?_, ?_⟩
  · rw [sbsonExport, show srefuses (.shared (.vec (.plain Samples.int32))) v = false from rfl, sbsonPass, e]
    simp only [Res.ok_bind, e2, Bool.false_eq_true, if_false]
    exact congrArg Res.ok hb
  · have hbase : sbase shEnv (.shared (.vec (.plain Samples.int32))) = .Array := rfl
    rw [hbase, simportValue]
    obtain ⟨s1, s2, g1, g2⟩ : ∃ s1 s2, (PI.init (BsonP.ofBytes .Array (bdoc (btree d)))).getToken BsonP.ops = .ok (.DocStart, PI.init s1) ∧
      (PI.init s1).getToken BsonP.ops = .ok (.ArrayStart, PI.init s2) := ⟨_, _, rfl, rfl⟩
    have g3 : ((PI.init s2).pushBackToken .ArrayStart).getToken BsonP.ops = .ok (.ArrayStart, PI.init s2) := gets_pushed _ (by simp)
    simp only [g1, Res.ok_bind, ne_eq, not_true_eq_false, if_false]
    rw [sdeser, g2]
    simp only [Res.ok_bind, reduceCtorEq, false_and, if_false, g3]
    exact ⟨_, rfl⟩

end Thors.Props
