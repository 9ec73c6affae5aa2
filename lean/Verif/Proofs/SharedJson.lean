import Verif.Proofs.SharedImport
import Verif.Proofs.JsonRoundTrip
/-
The JSON round trip of object graphs.
-/
namespace Thors
open Spec StrIn

theorem Faithful.weaken {K X : Type} {ek : Bytes → K} {ea : Atom → X} {sem : ScalarSem K X} {ok1 ok1' : Bytes → Prop} {ok2 ok2' : Atom → Prop}
    (F : Faithful ek ea sem ok1 ok2) (h1 : ∀ k, ok1' k → ok1 k) (h2 : ∀ a, ok2' a → ok2 a) : Faithful ek ea sem ok1' ok2' where
  key k h := F.key k (h1 k h)
  null a h := F.null a (h2 a h)
  int k i h := F.int k i (h2 _ h)
  flt f x h := F.flt f x (h2 _ h)
  bool b h := F.bool b (h2 _ h)
  str s h := F.str s (h2 _ h)

section
variable {S : SEnv} {mk : Bytes} {cell : Nat → STy} {okKey : Bytes → Prop} {okAtom : Atom → Prop} {H : Nat → SVal} {D : Nat → Prop}

mutual
/-- Objects are written at most once. -/
theorem sdoc_nodup : ∀ {t : STy} {v : SVal} {done done' : List Nat} {d : Doc}, SDoc S mk H t v done d done' → done.Nodup → done'.Nodup
  | _, _, _, _, _, .plain _, h => h
  | _, _, _, _, _, .list hs, h => sdocs_nodup hs h
  | _, _, _, _, _, .obj hs, h => sdocm_nodup hs h
  | _, _, _, _, _, .null, h => h
  | _, _, _, _, _, .again _, h => h
  | _, _, _, _, _, .first hn hs, h => List.nodup_cons.2 ⟨hn, sdoc_nodup hs h⟩
theorem sdocs_nodup : ∀ {t : STy} {v : List SVal} {done done' : List Nat} {d : List Doc}, SDocs S mk H t v done d done' → done.Nodup → done'.Nodup
  | _, _, _, _, _, .nil, h => h
  | _, _, _, _, _, .cons h1 h2, h => sdocs_nodup h2 (sdoc_nodup h1 h)
theorem sdocm_nodup : ∀ {t : List (Bytes × STy)} {v : List SVal} {done done' : List Nat} {d : List (Bytes × Doc)},
    SDocMembers S mk H t v done d done' → done.Nodup → done'.Nodup
  | _, _, _, _, _, .nil, h => h
  | _, _, _, _, _, .cons h1 h2, h => sdocm_nodup h2 (sdoc_nodup h1 h)
end

def ClosedIn (H : Nat → SVal) (done : List Nat) : Prop := ∀ a ∈ done, ∀ b ∈ targets (H a), b ∈ done

mutual
/-- What is written is closed under following handles. -/
theorem sdoc_closed : ∀ {t : STy} {v : SVal} {done done' : List Nat} {d : Doc}, SDoc S mk H t v done d done' → ClosedIn H done →
    ClosedIn H done' ∧ (∀ a ∈ done, a ∈ done') ∧ ∀ b ∈ targets v, b ∈ done'
  | _, _, _, _, _, .plain _, h => ⟨h, fun _ h => h, by simp [targets]⟩
  | _, _, _, _, _, .list hs, h => sdocs_closed hs h
  | _, _, _, _, _, .obj hs, h => sdocm_closed hs h
  | _, _, _, _, _, .null, h => ⟨h, fun _ h => h, by simp [targets]⟩
  | _, _, _, _, _, .again hm, h => ⟨h, fun _ h => h, by simp [targets, hm]⟩
  | _, _, _, _, _, .first hn hs, h => by
    obtain ⟨h1, h2, h3⟩ := sdoc_closed hs h
    refine ⟨fun a ha b hb => ?_, fun a ha => by simp [h2 a ha], by simp [targets]⟩
    rcases List.mem_cons.1 ha with rfl | ha
    · exact List.mem_cons_of_mem _ (h3 b hb)
    · exact List.mem_cons_of_mem _ (h1 a ha b hb)
theorem sdocs_closed : ∀ {t : STy} {v : List SVal} {done done' : List Nat} {d : List Doc}, SDocs S mk H t v done d done' → ClosedIn H done →
    ClosedIn H done' ∧ (∀ a ∈ done, a ∈ done') ∧ ∀ b ∈ targets.all v, b ∈ done'
  | _, _, _, _, _, .nil, h => ⟨h, fun _ h => h, by simp [targets.all]⟩
  | _, _, _, _, _, .cons h1 h2, h => by
    obtain ⟨a1, a2, a3⟩ := sdoc_closed h1 h
    obtain ⟨b1, b2, b3⟩ := sdocs_closed h2 a1
    refine ⟨b1, fun a ha => b2 a (a2 a ha), fun b hb => ?_⟩
    simp only [targets.all, List.mem_append] at hb
    exact hb.elim (fun hb => b2 b (a3 b hb)) (b3 b)
theorem sdocm_closed : ∀ {t : List (Bytes × STy)} {v : List SVal} {done done' : List Nat} {d : List (Bytes × Doc)},
    SDocMembers S mk H t v done d done' → ClosedIn H done → ClosedIn H done' ∧ (∀ a ∈ done, a ∈ done') ∧ ∀ b ∈ targets.all v, b ∈ done'
  | _, _, _, _, _, .nil, h => ⟨h, fun _ h => h, by simp [targets.all]⟩
  | _, _, _, _, _, .cons h1 h2, h => by
    obtain ⟨a1, a2, a3⟩ := sdoc_closed h1 h
    obtain ⟨b1, b2, b3⟩ := sdocm_closed h2 a1
    refine ⟨b1, fun a ha => b2 a (a2 a ha), fun b hb => ?_⟩
    simp only [targets.all, List.mem_append] at hb
    exact hb.elim (fun hb => b2 b (a3 b hb)) (b3 b)
end

section
variable (hn : okKey infoName) (hd : okKey infoData) (hck : ∀ c, ∀ m ∈ S.classes c, okKey m.1)
  (hD : ∀ a, D a → STyped S mk cell okKey okAtom (cell a) (H a) ∧ ∀ b ∈ targets (H a), D b)
include hn hd hck hD

set_option linter.unusedSectionVars false
mutual
theorem sdoc_keys : ∀ {t : STy} {v : SVal} {done done' : List Nat} {d : Doc}, SDoc S mk H t v done d done' →
    STyped S mk cell okKey okAtom t v → (∀ b ∈ targets v, D b) → AllKeys okKey d
  | _, _, _, _, _, .plain h, ht, _ => by
    obtain ⟨-, d, e, hk, -⟩ := ht
    rw [h] at e
    cases e
    exact hk
  | _, _, _, _, _, .list hs, ht, h => sdocs_keys hs ht h
  | _, _, _, _, _, .obj hs, ht, h => sdocm_keys hs ht h (hck _)
  | _, _, _, _, _, .null, _, h => trivial
  | _, _, _, _, _, .again _, _, h => ⟨hn, trivial, trivial⟩
  | _, _, _, _, _, .first (a := a) _ hs, ht, h =>
    ⟨hn, trivial, hd, sdoc_keys hs (ht.1 ▸ (hD a (h a (by simp [targets]))).1) (hD a (h a (by simp [targets]))).2, trivial⟩
theorem sdocs_keys : ∀ {t : STy} {v : List SVal} {done done' : List Nat} {d : List Doc}, SDocs S mk H t v done d done' →
    STyped.all S mk cell okKey okAtom t v → (∀ b ∈ targets.all v, D b) → AllKeys.elems okKey d
  | _, _, _, _, _, .nil, _, _ => trivial
  | _, _, _, _, _, .cons h1 h2, ht, h => ⟨sdoc_keys h1 ht.1 fun b hb => h b (by simp [targets.all, hb]),
      sdocs_keys h2 ht.2 fun b hb => h b (by simp [targets.all, hb])⟩
theorem sdocm_keys : ∀ {t : List (Bytes × STy)} {v : List SVal} {done done' : List Nat} {d : List (Bytes × Doc)},
    SDocMembers S mk H t v done d done' → STyped.members S mk cell okKey okAtom t v → (∀ b ∈ targets.all v, D b) → (∀ m ∈ t, okKey m.1) →
    AllKeys.members okKey d
  | _, _, _, _, _, .nil, _, _, _ => trivial
  | _, _, _, _, _, .cons h1 h2, ht, h, hm => ⟨hm _ List.mem_cons_self, sdoc_keys h1 ht.1 fun b hb => h b (by simp [targets.all, hb]),
      sdocm_keys h2 ht.2 (fun b hb => h b (by simp [targets.all, hb])) fun m hx => hm m (by simp [hx])⟩
end
end

section
variable (hint : ∀ a : Nat, a < 2 ^ 63 → okAtom (.int intmax a)) (hnull : okAtom .null)
  (hD : ∀ a, D a → STyped S mk cell okKey okAtom (cell a) (H a) ∧ ∀ b ∈ targets (H a), D b)
include hint hnull hD

set_option linter.unusedSectionVars false
mutual
theorem sdoc_scalars : ∀ {t : STy} {v : SVal} {done done' : List Nat} {d : Doc}, SDoc S mk H t v done d done' →
    STyped S mk cell okKey okAtom t v → (∀ b ∈ targets v, D b) → AllScalars okAtom d
  | _, _, _, _, _, .plain h, ht, _ => by
    obtain ⟨-, d, e, -, hk⟩ := ht
    rw [h] at e
    cases e
    exact hk
  | _, _, _, _, _, .list hs, ht, h => sdocs_scalars hs ht h
  | _, _, _, _, _, .obj hs, ht, h => sdocm_scalars hs ht h
  | _, _, _, _, _, .null, _, h => hnull
  | _, _, _, _, _, .again _, ht, h => ⟨hint _ ht.2.2, trivial⟩
  | _, _, _, _, _, .first (a := a) _ hs, ht, h =>
    ⟨hint _ ht.2.2, sdoc_scalars hs (ht.1 ▸ (hD a (h a (by simp [targets]))).1) (hD a (h a (by simp [targets]))).2, trivial⟩
theorem sdocs_scalars : ∀ {t : STy} {v : List SVal} {done done' : List Nat} {d : List Doc}, SDocs S mk H t v done d done' →
    STyped.all S mk cell okKey okAtom t v → (∀ b ∈ targets.all v, D b) → AllScalars.elems okAtom d
  | _, _, _, _, _, .nil, _, _ => trivial
  | _, _, _, _, _, .cons h1 h2, ht, h => ⟨sdoc_scalars h1 ht.1 fun b hb => h b (by simp [targets.all, hb]),
      sdocs_scalars h2 ht.2 fun b hb => h b (by simp [targets.all, hb])⟩
theorem sdocm_scalars : ∀ {t : List (Bytes × STy)} {v : List SVal} {done done' : List Nat} {d : List (Bytes × Doc)},
    SDocMembers S mk H t v done d done' → STyped.members S mk cell okKey okAtom t v → (∀ b ∈ targets.all v, D b) →
    AllScalars.members okAtom d
  | _, _, _, _, _, .nil, _, _ => trivial
  | _, _, _, _, _, .cons h1 h2, ht, h => ⟨sdoc_scalars h1 ht.1 fun b hb => h b (by simp [targets.all, hb]),
      sdocm_scalars h2 ht.2 fun b hb => h b (by simp [targets.all, hb])⟩
end
end

theorem exists_bound (rank : Nat → Nat) : ∀ l : List Nat, ∃ n, ∀ b ∈ l, rank b < n
  | [] => ⟨0, by simp⟩
  | a :: l => by
    obtain ⟨n, h⟩ := exists_bound rank l
    refine ⟨n + rank a + 1, fun b hb => ?_⟩
    rcases List.mem_cons.1 hb with rfl | hb
    · omega
    · have := h b hb; omega

/-- The whole graph: document and calls. -/
theorem shared_export (t : STy) (v : SVal) (ht : STyped S mk cell okKey okAtom t v)
    (hh : ∀ a, Reach H v a → STyped S mk cell okKey okAtom (cell a) (H a)) (hc : NoCycles H v) (hs : Separate H v) :
    ∃ d done sv, SDoc S mk H t v [] d done ∧ sser S mk H t v [] = .ok (cmdsOf d, sv) ∧ (∀ a ∈ done, Reach H v a) ∧
      FDoc S mk H sv t v [] d done := by
  obtain ⟨rank, hr⟩ := hc
  obtain ⟨n, hb⟩ := exists_bound rank (targets v)
  have K : HeapOk S mk cell okKey okAtom H (Reach H v) rank :=
    ⟨fun a b h1 h2 => ⟨.step h1 h2, hr a b h1 h2⟩, hh, hs.each, hs.pair⟩
  have P : ExPre H (Reach H v) rank n [] [] (locs v) (targets v) :=
    ⟨by simp, by simp, by simp, hs.root, fun c hc _ l hl => hs.rootEach c hc l hl, fun b h => ⟨.direct h, hb b h⟩⟩
  obtain ⟨d, sv, done, e, h, q, -, f⟩ := exports K n v t [] [] ht P
  exact ⟨d, done, sv, h, e, fun a ha => (q.only a ha).resolve_left (by simp), f _ (.refl _)⟩

end

/-- The round trip. -/
theorem shared_round_trip (S : SEnv) (pcfg : PrintCfg) (cfg : Cfg) (cell : Nat → STy) (H : Nat → SVal) (t : STy) (v : SVal) (post : Bytes)
    (hg : GoodTypes S.env) (hnf : ∀ i c, S.env.defs i = .cls c → NoFilter c.traits) (hm : cfg.marker = pcfg.marker) (hx : cfg.strict ≠ .Exact)
    (hc : GoodClasses S) (hck : ∀ c, ∀ m ∈ S.classes c, cleanKey m.1)
    (ht : STyped S pcfg.marker cell cleanKey sixAtom t v)
    (hh : ∀ a, Reach H v a → STyped S pcfg.marker cell cleanKey sixAtom (cell a) (H a))
    (hcy : NoCycles H v) (hs : Separate H v) :
    ∃ d done, SDoc S pcfg.marker H t v [] d done ∧ done.Nodup ∧ (∀ a, a ∈ done ↔ Reach H v a) ∧
      (FitsIndent pcfg (nesting d) → Ends (jtree streamText d) post → ∃ text φ st p, sjsonExport S pcfg.marker H pcfg t v = .ok text ∧
        JDoc codePair (jtree streamText d) text ∧
        simportValue JsonP.ops S cfg t (PI.init (JsonP.ofBytes (text ++ post) true)) = .ok ((rename φ v, st), p) ∧
        p.inner.lex.inp.rest = post ∧
        (∀ a, Reach H v a → st.heap[φ a]? = some (rename φ (H a))) ∧
        (∀ a b, Reach H v a → Reach H v b → φ a = φ b → a = b) ∧
        (∀ i, i < st.heap.length → ∃ a, Reach H v a ∧ φ a = i)) := by
  obtain ⟨d, done, sv, h, e, hr, -⟩ := shared_export t v ht hh hcy hs
  have hD : ∀ a, Reach H v a → STyped S pcfg.marker cell cleanKey sixAtom (cell a) (H a) ∧ ∀ b ∈ targets (H a), Reach H v b :=
    fun a ha => ⟨hh a ha, fun b hb => .step ha hb⟩
  have F := jsonFaithful.weaken (ok1' := cleanKey) (ok2' := sixAtom) (fun _ _ => trivial) (fun _ h => h)
  have hn : cleanKey infoName := by decide
  have hda : cleanKey infoData := by decide
  have himp := imports (o := JsonP.ops) (cfg := cfg) F hn hda (fun _ _ => trivial) trivial hg hnf hm hx hc hck hD h id ⟨[], []⟩
    ⟨by simp, by simp, by simp, by simp, by simp⟩ ht (fun b hb => .direct hb)
  have hall : ∀ a, Reach H v a → a ∈ done := by
    obtain ⟨h1, -, h3⟩ := sdoc_closed h (by simp [ClosedIn])
    intro a ha
    induction ha with
    | direct h => exact h3 _ h
    | step _ hb ih => exact h1 _ ih _ hb
  refine ⟨d, done, h, sdoc_nodup h List.nodup_nil, fun a => ⟨hr a, hall a⟩, fun hf hp => ?_⟩
  have hk : AllKeys cleanKey d := sdoc_keys hn hda hck hD h ht (fun b hb => .direct hb)
  obtain ⟨ws, w0, w, tv, e1, -, -, hw, hpt, hby⟩ := run_doc streamText pcfg d ⟨0, .Value, false⟩ [] (by simpa using fits_width hf)
  have ha : AllScalars sixAtom d := sdoc_scalars (fun _ _ => trivial) trivial hD h ht (fun b hb => .direct hb)
  have hjt := ptext_jtext codePair d tv hk (AllScalars.imp (fun _ h => finite_ok (six_ok h)) d ha) hpt
  obtain ⟨s1, g1, s2, g2, g3⟩ := doc_presents (conv := true) hw hjt hp
  rw [jtree_enc] at g2 g3
  obtain ⟨s3, st, φ, e3, ⟨s4, g4, g5⟩, R, -, -⟩ := himp _ s2 (PI.init s1) (gets_next JsonP.ops g2) g3
  refine ⟨w ++ tv, φ, st, PI.init s4, ?_, ⟨w, tv, [], hw, by simp [Ws], hjt, by simp⟩, ?_, g5.inp.1, ?_, ?_, ?_⟩
  · simp only [sjsonExport, e, Res.ok_bind]
    rw [show JPrint.init = [⟨0, .Value, false⟩] from rfl, e1]
    simp [hby, sepOf]
  · have g1' : Gets JsonP.ops (PI.init (JsonP.ofBytes (w ++ tv ++ post) true)) .DocStart s1 := gets_next JsonP.ops g1
    have g4' : Gets JsonP.ops (PI.init s3) .DocEnd s4 := gets_next JsonP.ops g4
    simp only [Gets] at g1' g4'
    rw [simportValue]
    simp only [g1', Res.ok_bind, ne_eq, not_true_eq_false, if_false, e3, g4']
    rfl
  · exact fun a ha => R.heap a (hall a ha)
  · exact fun a b ha hb hab => R.inj a (hall a ha) b (hall b hb) hab
  · intro i hi
    obtain ⟨a, ha, e⟩ := R.onto i hi
    exact ⟨a, hr a ha, e⟩

end Thors
