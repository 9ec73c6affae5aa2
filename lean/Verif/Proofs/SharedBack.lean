import Verif.Proofs.SharedMore
import Verif.Proofs.StreamImport
import Verif.Proofs.BsonStreamDoc
import Verif.Proofs.Yaml
import Verif.Proofs.YamlPresents
import Verif.Props.Bson
/-
Object graphs in the other formats: from what the exporter writes the importer makes the same graph.
-/
namespace Thors
open Spec StrIn BPrint Thors.Props

section
variable {S : SEnv} {mk : Bytes} {cell : Nat → STy} {okKey : Bytes → Prop} {okAtom : Atom → Prop} {H : Nat → SVal}
variable {σ K X : Type} {o : POps σ} {sem : ScalarSem K X} {cfg : Cfg} {ek : Bytes → K} {ea : Atom → X}

/-- The document of a graph gives the same graph, in every format. -/
theorem shared_back (F : Faithful ek ea sem okKey okAtom) (hn : okKey infoName) (hd : okKey infoData)
    (hint : ∀ a : Nat, a < 2 ^ 63 → okAtom (.int intmax a)) (hnull : okAtom .null)
    (hg : GoodTypes S.env) (hnf : ∀ i c, S.env.defs i = .cls c → NoFilter c.traits) (hm : cfg.marker = mk)
    (hx : cfg.strict ≠ .Exact) (hc : GoodClasses S) (hck : ∀ c, ∀ m ∈ S.classes c, okKey m.1)
    {t : STy} {v : SVal} (ht : STyped S mk cell okKey okAtom t v) (hh : ∀ a, Reach H v a → STyped S mk cell okKey okAtom (cell a) (H a))
    {d : Doc} {done : List Nat} (h : SDoc S mk H t v [] d done) (hr : ∀ a ∈ done, Reach H v a)
    {s s1 : σ} {Q : σ → Prop} (g1 : o.next s = .ok (.DocStart, s1))
    (g2 : Presents o sem (enc ek ea d) (fun s => ∃ s', o.next s = .ok (.DocEnd, s') ∧ Q s') s1) :
    ∃ v' st s', simportValue o S cfg t (PI.init s) = .ok ((v', st), PI.init s') ∧ Q s' ∧ SameGraph H v v' st.heap := by
  have hD : ∀ a, Reach H v a → STyped S mk cell okKey okAtom (cell a) (H a) ∧ ∀ b ∈ targets (H a), Reach H v b :=
    fun a ha => ⟨hh a ha, fun b hb => .step ha hb⟩
  have himp := imports (o := o) (cfg := cfg) F hn hd hint hnull hg hnf hm hx hc hck hD h id ⟨[], []⟩
    ⟨by simp, by simp, by simp, by simp, by simp⟩ ht (fun b hb => .direct hb)
  have hall : ∀ a, Reach H v a → a ∈ done := by
    obtain ⟨h1, -, h3⟩ := sdoc_closed h (by simp [ClosedIn])
    intro a ha
    induction ha with
    | direct h => exact h3 _ h
    | step _ hb ih => exact h1 _ ih _ hb
  obtain ⟨s2, g2, g3⟩ := g2
  obtain ⟨s3, st, φ, e3, ⟨s4, g4, g5⟩, R, -, -⟩ := himp _ s2 (PI.init s1) (gets_next o g2) g3
  refine ⟨_, st, s4, ?_, g5, φ, rfl, fun a ha => R.heap a (hall a ha), fun a b ha hb => R.inj a (hall a ha) b (hall b hb), ?_⟩
  · have g1' : Gets o (PI.init s) .DocStart s1 := gets_next o g1
    have g4' : Gets o (PI.init s3) .DocEnd s4 := gets_next o g4
    simp only [Gets] at g1' g4'
    rw [simportValue]
    simp only [g1', Res.ok_bind, ne_eq, not_true_eq_false, if_false, e3, g4']
    rfl
  · intro i hi
    obtain ⟨a, ha, e⟩ := R.onto i hi
    exact ⟨a, hr a ha, e⟩

/-- What the exporter is given, for the sizes. -/
theorem shared_serB (info : SizeInfo) {t : STy} {v : SVal} (ht : STyped S mk cell okKey okAtom t v)
    (hh : ∀ a, Reach H v a → STyped S mk cell okKey okAtom (cell a) (H a) ∧ SSized S info true (cell a) (H a)) (hz : SSized S info false t v)
    {F : Saved} {d : Doc} {done : List Nat} (h : FDoc S mk H F t v [] d done) (sv : Saved) (hx : Ext sv F) :
    ∃ sv', sserB S mk info H t v sv = .ok (scmds d, sv') ∧ Ext sv' F := by
  obtain ⟨sv', e, k⟩ := fdoc_sserB (D := Reach H v) (fun a ha => ⟨(hh a ha).1, (hh a ha).2, fun b hb => .step ha hb⟩) h ht (fun b hb => .direct hb)
    false hz sv hx (by simp [Covers])
  exact ⟨sv', e, k.fin⟩

theorem sbase_root {t : STy} {v : SVal} {done done' : List Nat} {d : Doc} (h : SDoc S mk H t v done d done') (ht : STopLevel S t v) :
    sbase S t = BsonP.rootKind (btree d) ∧ srefuses t v = false := by
  cases h with
  | plain h => exact base_root S.env mk _ _ _ h ht
  | list _ => exact ⟨rfl, rfl⟩
  | obj _ => exact ⟨rfl, rfl⟩
  | null => exact absurd rfl ht.1
  | again _ => exact ⟨ht.2, rfl⟩
  | first _ _ => exact ⟨ht.2, rfl⟩

theorem nil_ext {F : Saved} : Ext [] F := by intro a l h; simp [List.lookup] at h

/-- A pass of the BSON printer, with any beginning of the table. -/
theorem sbson_pass (info : SizeInfo) {t : STy} {v : SVal} (ht : STyped S mk cell okKey okAtom t v)
    (hh : ∀ a, Reach H v a → STyped S mk cell okKey okAtom (cell a) (H a) ∧ SSized S info true (cell a) (H a)) (hz : SSized S info false t v)
    (htop : STopLevel S t v) {F : Saved} {d : Doc} {done done' : List Nat} (h : FDoc S mk H F t v [] d done) (h' : SDoc S mk H t v [] d done')
    (ha : AllScalars plainAtom d) :
    ∃ ws, bytesOf ws = bdoc (btree d) ∧ (∀ w ∈ ws, ∃ b, w = .chars b) ∧
      ∀ sv, Ext sv F → ∃ sv', sbsonPass S mk info H t v sv = .ok (ws, sv') ∧ Ext sv' F := by
  obtain ⟨ws, s, e, hb⟩ := bson_run_doc d ha
  refine ⟨_, hb, ?_, ?_⟩
  · intro w hw
    rcases List.mem_append.1 hw with hw | hw
    · exact run_chars _ _ _ _ e w hw
    · unfold closeDoc at hw
      split at hw <;> simp at hw
      exact ⟨_, hw⟩
  · intro sv hx
    obtain ⟨sv', e1, x1⟩ := shared_serB info ht hh hz h sv hx
    refine ⟨sv', ?_, x1⟩
    rw [sbsonPass, e1, (sbase_root h' htop).1]
    simp only [Res.ok_bind, e]
    rfl

end

theorem streamFaithful (num : Bool) : Faithful (fun k => (⟨k, k⟩ : JStr)) (jscalar streamText) (jssemN num true) (fun _ => True) (fun a => sixAtom a ∧ usualAtom a) where
  key k h := jsonFaithful.key k h
  null a h := jsonFaithful.null a h.1
  int k i h hr := (string_readsLike_stream (fun _ => True) true).int _ _ k i h.2 ⟨rfl, lit _ h.1⟩ (jsonFaithful.int k i h.1 hr)
  flt f x h hr := (string_readsLike_stream (fun _ => True) true).flt _ _ f x trivial ⟨rfl, lit _ h.1⟩ (jsonFaithful.flt f x h.1 hr)
  bool b h := (string_readsLike_stream (fun _ => True) true).bool _ _ b ⟨rfl, lit _ h.1⟩ (jsonFaithful.bool b h.1)
  str s h := (string_readsLike_stream (fun _ => True) true).str _ _ s ⟨rfl, lit _ h.1⟩ (jsonFaithful.str s h.1)
where
  lit (a : Atom) (h : sixAtom a) : LitOk (jscalar streamText a) := by
    have := ptext_jtext codePair (.scalar a) (by exact (atomText streamText a)) trivial (finite_ok (six_ok h)) (by rfl)
    exact scalar_litOk this

end Thors

namespace Thors
open Spec StrIn

section
variable {S : SEnv} {mk : Bytes} {H : Nat → SVal}

mutual
theorem sdoc_grows : ∀ {t : STy} {v : SVal} {done done' : List Nat} {d : Doc}, SDoc S mk H t v done d done' → ∀ a ∈ done, a ∈ done'
  | _, _, _, _, _, .plain _ => fun _ h => h
  | _, _, _, _, _, .list h => sdocs_grows h
  | _, _, _, _, _, .obj h => sdocm_grows h
  | _, _, _, _, _, .null => fun _ h => h
  | _, _, _, _, _, .again _ => fun _ h => h
  | _, _, _, _, _, .first _ h => fun a ha => List.mem_cons_of_mem _ (sdoc_grows h a ha)
theorem sdocs_grows : ∀ {t : STy} {v : List SVal} {done done' : List Nat} {d : List Doc}, SDocs S mk H t v done d done' → ∀ a ∈ done, a ∈ done'
  | _, _, _, _, _, .nil => fun _ h => h
  | _, _, _, _, _, .cons h1 h2 => fun a ha => sdocs_grows h2 a (sdoc_grows h1 a ha)
theorem sdocm_grows : ∀ {t : List (Bytes × STy)} {v : List SVal} {done done' : List Nat} {d : List (Bytes × Doc)}, SDocMembers S mk H t v done d done' → ∀ a ∈ done, a ∈ done'
  | _, _, _, _, _, .nil => fun _ h => h
  | _, _, _, _, _, .cons h1 h2 => fun a ha => sdocm_grows h2 a (sdoc_grows h1 a ha)
end

mutual
/-- A graph has one document. -/
theorem sdoc_det : ∀ {t : STy} {v : SVal} {done d1 d2 : List Nat} {d e : Doc}, SDoc S mk H t v done d d1 → SDoc S mk H t v done e d2 → d = e ∧ d1 = d2
  | _, _, _, _, _, _, _, .plain h, .plain h' => by rw [h] at h'; cases h'; exact ⟨rfl, rfl⟩
  | _, _, _, _, _, _, _, .list h, .list h' => by obtain ⟨rfl, rfl⟩ := sdocs_det h h'; exact ⟨rfl, rfl⟩
  | _, _, _, _, _, _, _, .obj h, .obj h' => by obtain ⟨rfl, rfl⟩ := sdocm_det h h'; exact ⟨rfl, rfl⟩
  | _, _, _, _, _, _, _, .null, .null => ⟨rfl, rfl⟩
  | _, _, _, _, _, _, _, .again _, .again _ => ⟨rfl, rfl⟩
  | _, _, _, _, _, _, _, .first _ h, .first _ h' => by obtain ⟨rfl, rfl⟩ := sdoc_det h h'; exact ⟨rfl, rfl⟩
  | _, _, _, _, _, _, _, .again m, .first n h => absurd (sdoc_grows h _ m) n
  | _, _, _, _, _, _, _, .first n h, .again m => absurd (sdoc_grows h _ m) n
theorem sdocs_det : ∀ {t : STy} {v : List SVal} {done d1 d2 : List Nat} {d e : List Doc}, SDocs S mk H t v done d d1 → SDocs S mk H t v done e d2 → d = e ∧ d1 = d2
  | _, _, _, _, _, _, _, .nil, .nil => ⟨rfl, rfl⟩
  | _, _, _, _, _, _, _, .cons h g, .cons h' g' => by
    obtain ⟨rfl, rfl⟩ := sdoc_det h h'
    obtain ⟨rfl, rfl⟩ := sdocs_det g g'
    exact ⟨rfl, rfl⟩
theorem sdocm_det : ∀ {t : List (Bytes × STy)} {v : List SVal} {done d1 d2 : List Nat} {d e : List (Bytes × Doc)},
    SDocMembers S mk H t v done d d1 → SDocMembers S mk H t v done e d2 → d = e ∧ d1 = d2
  | _, _, _, _, _, _, _, .nil, .nil => ⟨rfl, rfl⟩
  | _, _, _, _, _, _, _, .cons h g, .cons h' g' => by
    obtain ⟨rfl, rfl⟩ := sdoc_det h h'
    obtain ⟨rfl, rfl⟩ := sdocm_det g g'
    exact ⟨rfl, rfl⟩
end

/-- `shared_export`, for the document. -/
theorem shared_exports {cell : Nat → STy} {okKey : Bytes → Prop} {okAtom : Atom → Prop} {t : STy} {v : SVal} (ht : STyped S mk cell okKey okAtom t v)
    (hh : ∀ a, Reach H v a → STyped S mk cell okKey okAtom (cell a) (H a)) (hc : NoCycles H v) (hs : Separate H v)
    {d : Doc} {done : List Nat} (h : SDoc S mk H t v [] d done) :
    ∃ sv, sser S mk H t v [] = .ok (cmdsOf d, sv) ∧ (∀ a ∈ done, Reach H v a) ∧ FDoc S mk H sv t v [] d done := by
  obtain ⟨d', done', sv, h', e, hr, f⟩ := shared_export t v ht hh hc hs
  obtain ⟨rfl, rfl⟩ := sdoc_det h h'
  exact ⟨sv, e, hr, f⟩
end
end Thors
