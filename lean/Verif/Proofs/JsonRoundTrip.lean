import Verif.Proofs.JsonImport
import Verif.Proofs.RoundTrip
import Verif.Proofs.Restored
import Verif.Proofs.JsonExport
/-
The JSON round trip.
-/
namespace Thors
open Spec StrIn

mutual
theorem jtree_enc (ft : FKind → Flt → Bytes) : ∀ d : Doc, jtree ft d = enc (fun k => ⟨k, k⟩) (jscalar ft) d
  | .scalar a => rfl
  | .arr ts => by rw [jtree, enc, jtree_enc_elems ft ts]
  | .obj ms => by rw [jtree, enc, jtree_enc_members ft ms]
theorem jtree_enc_elems (ft : FKind → Flt → Bytes) : ∀ ts : List Doc, jtree.elems ft ts = enc.elems (fun k => ⟨k, k⟩) (jscalar ft) ts
  | [] => rfl
  | t :: ts => by rw [jtree.elems, enc.elems, jtree_enc ft t, jtree_enc_elems ft ts]
theorem jtree_enc_members (ft : FKind → Flt → Bytes) : ∀ ms : List (Bytes × Doc),
    jtree.members ft ms = enc.members (fun k => ⟨k, k⟩) (jscalar ft) ms
  | [] => rfl
  | (k, t) :: ms => by rw [jtree.members, enc.members, jtree_enc ft t, jtree_enc_members ft ms]
end

theorem natText_noMinus (n : Nat) : (natText n).head? ≠ some 0x2D := by
  have := natText_digits n
  cases h : natText n with
  | nil => simp
  | cons c t =>
    have h1 := this c (by simp [h])
    intro e
    simp at e
    subst e
    exact absurd h1 (by decide)

theorem stdKind_prec {f : FKind} (h : f ∈ [f32, f64, f80]) : 21 ≤ f.prec := by
  simp only [List.mem_cons, List.not_mem_nil, or_false] at h
  rcases h with rfl | rfl | rfl <;> decide

/-- What six digits describe is written as a number that is read as the value. -/
theorem six_text {f : FKind} {x : Flt} (h : Six f x) : ∃ y, JsonNumber (streamText f x) y ∧ y.toFlt f = some x := by
  obtain ⟨hf, h⟩ := h
  have hp := stdKind_prec hf
  rcases h with ⟨neg, rfl⟩ | ⟨neg, D, X, h1, h2, h3, hv⟩
  · refine ⟨⟨neg, 0, -1⟩, ?_, toFlt_exact (by omega) ?_ (by simp)⟩
    · cases neg
      · exact zero_number false
      · exact zero_number true
    · simp only [List.mem_cons, List.not_mem_nil, or_false] at hf
      rcases hf with rfl | rfl | rfl <;> exact ⟨⟨by decide, by decide⟩, by decide⟩
  · obtain ⟨y, g1, g2⟩ := general6_short hp h1 h2 neg h3 hv
    have hst : streamText f x = general6 f x := by
      obtain ⟨rfl, _, h0⟩ := toFlt_some hv
      refine streamText_general f neg ?_
      intro hm
      have := h0 hm
      simp only at this
      omega
    rw [hst]
    exact ⟨y, g1, (toFlt_same f g2).trans hv⟩

theorem six_finite {f : FKind} {x : Flt} (h : Six f x) : finite x := by
  rcases h.2 with ⟨neg, rfl⟩ | ⟨neg, D, X, -, -, -, hv⟩
  · trivial
  · rw [(toFlt_some hv).1]; trivial

theorem finite_ok {a : Atom} (h : finiteAtom a) : AtomOk streamText a := by
  cases a with
  | flt f x =>
    cases x with
    | fin neg m E => exact streamText_close f neg m E
    | _ => exact h.elim
  | _ => trivial

theorem six_ok {a : Atom} (h : sixAtom a) : finiteAtom a := by
  cases a with
  | flt f x => exact six_finite h
  | _ => trivial

mutual
theorem AllScalars.imp {K X : Type} {P Q : X → Prop} (h : ∀ x, P x → Q x) : ∀ d : Tr K X, AllScalars P d → AllScalars Q d
  | .scalar x, hd => h x hd
  | .arr ts, hd => AllScalars.imp_elems h ts hd
  | .obj ms, hd => AllScalars.imp_members h ms hd
theorem AllScalars.imp_elems {K X : Type} {P Q : X → Prop} (h : ∀ x, P x → Q x) : ∀ ts : List (Tr K X), AllScalars.elems P ts → AllScalars.elems Q ts
  | [], _ => trivial
  | t :: ts, hd => ⟨AllScalars.imp h t hd.1, AllScalars.imp_elems h ts hd.2⟩
theorem AllScalars.imp_members {K X : Type} {P Q : X → Prop} (h : ∀ x, P x → Q x) : ∀ ms : List (K × Tr K X),
    AllScalars.members P ms → AllScalars.members Q ms
  | [], _ => trivial
  | (_, t) :: ms, hd => ⟨AllScalars.imp h t hd.1, AllScalars.imp_members h ms hd.2⟩
end

theorem jsonFaithful : Faithful (fun k => (⟨k, k⟩ : JStr)) (jscalar streamText) (jsem true) (fun _ => True) sixAtom where
  key k _ := by simp [jsem, JStr.val]
  null a h := by
    cases a with
    | flt f x =>
      obtain ⟨y, h1, -⟩ := six_text h
      simp [jsem, jscalar, (fltScalar_spec rfcPair h1).2.2]
    | _ => simp [jsem, jscalar]
  flt f x h _ := by
    obtain ⟨y, h1, h2⟩ := six_text h
    simp only [jsem, jscalar, (fltScalar_spec rfcPair h1).2.1, h2]
  int k i _ h := by
    have : ¬ (k.signed = false ∧ (intText i).head? = some 0x2D) := by
      rintro ⟨h1, h2⟩
      obtain ⟨b, s⟩ := k
      simp only at h1
      subst h1
      simp [InRange] at h
      cases i with
      | ofNat n => exact natText_noMinus n h2
      | negSucc n => omega
    simp [jsem, jscalar, if_neg this, h]
  bool b _ := by simp [jsem, jscalar]
  str s _ := by simp [jsem, jscalar, JStr.val]

mutual
theorem allKeys_true : ∀ d : Doc, AllKeys (fun _ => True) d
  | .scalar _ => trivial
  | .arr ts => allKeys_true_elems ts
  | .obj ms => allKeys_true_members ms
theorem allKeys_true_elems : ∀ ts : List Doc, AllKeys.elems (fun _ => True) ts
  | [] => trivial
  | t :: ts => ⟨allKeys_true t, allKeys_true_elems ts⟩
theorem allKeys_true_members : ∀ ms : List (Bytes × Doc), AllKeys.members (fun _ => True) ms
  | [] => trivial
  | (_, t) :: ms => ⟨trivial, allKeys_true t, allKeys_true_members ms⟩
end

/-- Export, then import of the text in front of anything. -/
theorem json_round_trip_ok (env : Env) (pcfg : PrintCfg) (cfg : Cfg) (ty : Ty) (v old : Val) (d : Doc) (post : Bytes)
    (hg : GoodTypes env) (hm : cfg.marker = pcfg.marker) (hx : cfg.strict = .Exact → ExactTypes env)
    (hd : docOf env pcfg.marker ty v = .ok d) (hs : Storable env pcfg.marker ty v) (ho : Fresh env ty old)
    (hk : AllKeys cleanKey d) (ha : AllScalars sixAtom d) (hf : FitsIndent pcfg (nesting d)) (hp : Ends (jtree streamText d) post) :
    ∃ text p, jsonExport env pcfg ty v = .ok text ∧
      importValue JsonP.ops env cfg ty old (PI.init (JsonP.ofBytes (text ++ post) true)) = .ok (restored env ty old v, p) ∧
      p.inner.lex.inp.rest = post ∧ p.inner.lex.inp.isOk = true := by
  obtain ⟨w, tv, ws, ss, hw, ht, -, -, e⟩ := export_doc env pcfg ty v d hd hf
  have h1 := json_import_match env cfg (conv := true) hw
    (ptext_jtext codePair d tv hk (AllScalars.imp (fun _ h => finite_ok (six_ok h)) d ha) ht) hp ty old
  rw [jtree_enc, rt_val _ _ _ env cfg pcfg.marker jsonFaithful hg hm hx v ty old d hd hs ho (allKeys_true d) ha] at h1
  obtain ⟨s, e1, h2⟩ := h1
  exact ⟨_, _, e, e1, h2.inp.1, h2.inp.2.1⟩

theorem json_round_trip (env : Env) (pcfg : PrintCfg) (cfg : Cfg) (ty : Ty) (v old : Val) (d : Doc) (post : Bytes)
    (hg : GoodTypes env) (hm : cfg.marker = pcfg.marker) (hx : cfg.strict = .Exact → ExactTypes env)
    (hd : docOf env pcfg.marker ty v = .ok d) (hs : Storable env pcfg.marker ty v) (ho : Fresh env ty old)
    (hk : AllKeys cleanKey d) (ha : AllScalars sixAtom d) (hf : FitsIndent pcfg (nesting d)) (hp : Ends (jtree streamText d) post) :
    ∃ text p, jsonExport env pcfg ty v = .ok text ∧
      importValue JsonP.ops env cfg ty old (PI.init (JsonP.ofBytes (text ++ post) true)) = .ok (restored env ty old v, p) ∧
      p.inner.lex.inp.rest = post := by
  obtain ⟨text, p, h1, h2, h3, -⟩ := json_round_trip_ok env pcfg cfg ty v old d post hg hm hx hd hs ho hk ha hf hp
  exact ⟨text, p, h1, h2, h3⟩

end Thors
