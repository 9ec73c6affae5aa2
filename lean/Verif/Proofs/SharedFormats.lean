import Verif.Proofs.SharedSafe
import Verif.Proofs.SharedDefined
import Verif.Proofs.SharedEnds
import Verif.Proofs.TypedOps
import Verif.Proofs.EndsExtract
import Verif.Proofs.JsonSEndsExtract
import Verif.Proofs.BsonStrEnds
import Verif.Proofs.YamlEnds
import Verif.Proofs.YamlPresents
import Verif.Proofs.JsonImport
import Verif.Proofs.StreamImport
import Verif.Proofs.BsonExport
import Verif.Proofs.BsonStreamDoc
import Verif.Model.SharedBson
/-
Imports of types with shared pointers, for each format.
-/
namespace Thors
open Spec StrIn

/-- Serialize.h:250-283: the import into a new object of the type. What is left of the input is not looked at. -/
noncomputable def sload {σ : Type} (o : POps σ) (S : SEnv) (cfg : Cfg) (t : STy) (s : σ) : Res (SVal × Loaded) := do
  let (r, _) ← simportValue o S cfg t (PI.init s)
  return r

theorem sload_safe {σ : Type} {o : POps σ} {S : SEnv} (R : Ranged o) (D : DefaultsTyped S.env) {cfg : Cfg} {t : STy} {s : σ} {v : SVal} {st : Loaded}
    (h : sload o S cfg t s = .ok (v, st)) : WellBuilt S t v st.heap := by
  obtain ⟨⟨r, p⟩, h1, h2⟩ := Res.bind_eq_ok.mp h
  cases h2
  exact (simport_safe R D cfg t _ _ h1).1

theorem sload_owned {σ : Type} {o : POps σ} {S : SEnv} (R : Ranged o) (D : DefaultsTyped S.env) {cfg : Cfg} {t : STy} {s : σ} {v : SVal} {st : Loaded}
    (h : sload o S cfg t s = .ok (v, st)) : AllOwned st := by
  obtain ⟨⟨r, p⟩, h1, h2⟩ := Res.bind_eq_ok.mp h
  cases h2
  exact (simport_safe R D cfg t _ _ h1).2

theorem sload_match {σ K X : Type} {o : POps σ} {sem : ScalarSem K X} {S : SEnv} {cfg : Cfg} {t : STy} {s : σ} {tr : Tr K X} {Q : σ → Prop}
    (h : Match (Sk cfg (tr.skippable sem)) Q (simportValue o S cfg t (PI.init s)) (impS sem S cfg tr t ⟨[], []⟩))
    (hc : (cfg.strict = .Weak → tr.skippable sem = true) ∨ impS sem S cfg tr t ⟨[], []⟩ ≠ .ub) : sload o S cfg t s = impS sem S cfg tr t ⟨[], []⟩ := by
  unfold sload
  cases he : impS sem S cfg tr t ⟨[], []⟩ with
  | ok a => rw [he] at h; obtain ⟨s, e, -⟩ := h; rw [e]; rfl
  | throw e => rw [he] at h; rw [show simportValue _ _ _ _ _ = _ from h]; rfl
  | ub => rw [he] at h hc; rw [h (hc.resolve_right (by simp))]; rfl

theorem sload_ends {σ : Type} {o : POps σ} {S : SEnv} {cfg : Cfg} {t : STy} {s : σ} (h : simportValue o S cfg t (PI.init s) ≠ .ub) : sload o S cfg t s ≠ .ub :=
  Res.bind_ne_ub h fun _ _ => by simp

section
variable (S : SEnv) (cfg : Cfg) (t : STy)

theorem sload_json {conv : Bool} {v : JTree} {b : Bytes} (hd : JDoc codePair v b)
    (hc : (cfg.strict = .Weak → v.skippable (jsem conv) = true) ∨ impS (jsem conv) S cfg v t ⟨[], []⟩ ≠ .ub) :
    sload JsonP.ops S cfg t (JsonP.ofBytes b conv) = impS (jsem conv) S cfg v t ⟨[], []⟩ := by
  obtain ⟨w1, tv, w2, hw1, hw2, hv, rfl⟩ := hd
  obtain ⟨s1, h1, h2⟩ := doc_presents (conv := conv) hw1 hv (.of (valueEnds_ws hw2))
  exact sload_match (simport_refines JsonP.ops (jsem conv) S cfg (s := JsonP.ofBytes (w1 ++ tv ++ w2) conv) h1 h2 t) hc

theorem impS_num (n conv : Bool) (x : JScalar) (st : Loaded) : impS (jssemN n conv) S cfg (.scalar x) t st = impS (jssem conv) S cfg (.scalar x) t st := by
  cases t with
  | plain t =>
    rw [impS, impS, impPlain, impPlain, imp, imp, impScalar_num]
  | vec t | cls c => rw [impS, impS]
  | shared t => rw [impS, impS]; rfl

theorem impS_scalar_no_ub (conv : Bool) (x : JScalar) (st : Loaded) : impS (jssem conv) S cfg (.scalar x) t st ≠ .ub := by
  cases t with
  | plain t =>
    rw [impS, impPlain, imp]
    exact Res.bind_ne_ub (impScalar_no_ub S.env conv x t _) fun _ _ => by simp
  | vec t | cls c => rw [impS]; simp
  | shared t => rw [impS]; split <;> simp

theorem sload_json_stream {conv : Bool} {v : JTree} {w tv post : Bytes} (hw : Ws w) (hv : JText codePair v tv) (hp : Ends v post) {i : IStr}
    (hi : OkS (w ++ tv ++ post) i) (hc : (cfg.strict = .Weak → v.skippable (jssem conv) = true) ∨ impS (jssem conv) S cfg v t ⟨[], []⟩ ≠ .ub) :
    sload JsonS.ops S cfg t (JsonS.ofStream i conv) = impS (jssem conv) S cfg v t ⟨[], []⟩ := by
  have key : ∀ n, (∀ x, v = .scalar x → n = false) → Match (Sk cfg (v.skippable (jssemN n conv))) (AtJS conv ctlEnd post)
      (simportValue JsonS.ops S cfg t (PI.init (JsonS.ofStream i conv))) (impS (jssemN n conv) S cfg v t ⟨[], []⟩) := by
    intro n hn
    obtain ⟨s2, g1, g2⟩ := presents_stream n conv _ tv hv ⟨.Done, .Init, [], true⟩ w post _ (.init hw) (by
      cases v with
      | scalar x => exact ⟨hp, by simp [hn x rfl]⟩
      | _ => trivial) (stream_start (conv := conv) hi)
    exact simport_refines JsonS.ops (jssemN n conv) S cfg (s := JsonS.ofStream i conv) rfl ⟨s2, g1, after_mono JsonS.ops _ _ (by
      rintro ⟨l, c⟩ ⟨h1, h2, h3⟩
      simp only at h1
      subst h1
      exact ⟨⟨l, ctlEnd⟩, rfl, rfl, h2, h3⟩) g2⟩ t
  cases v with
  | scalar x =>
    have h := key false fun _ _ => rfl
    have hn := impS_scalar_no_ub S cfg t conv x ⟨[], []⟩
    rw [← impS_num S cfg t false] at hn ⊢
    exact sload_match h (.inr hn)
  | arr vs => exact sload_match (key true fun _ e => by cases e) hc
  | obj ms => exact sload_match (key true fun _ e => by cases e) hc

theorem sload_bson {tr : BTree} (h : Storable32 tr) (rest : Bytes) (hb : sbase S t = BsonP.rootKind tr) :
    sload BsonP.ops S cfg t (BsonP.ofBytes (sbase S t) (bdoc tr ++ rest)) = impS bsem S cfg tr t ⟨[], []⟩ := by
  obtain ⟨s1, h1, h2⟩ := BsonP.bdoc_presents BsonP.skipper_ignore tr h rest
  rw [hb]
  exact sload_match (simport_refines BsonP.ops bsem S cfg (s := BsonP.ofBytes (BsonP.rootKind tr) (bdoc tr ++ rest)) h1 h2 t) (.inl fun _ => bskippable tr)

theorem sload_bson_stream {tr : BTree} (h : Storable32 tr) (rest : Bytes) (hb : sbase S t = BsonP.rootKind tr) {i : IStr} (hi : Stands (bdoc tr ++ rest) i) :
    sload BsonS.ops S cfg t (BsonS.ofStream (sbase S t) i) = impS bsem S cfg tr t ⟨[], []⟩ := by
  obtain ⟨s1, h1, h2⟩ := bson_stream_presents tr h rest hi
  rw [hb]
  exact sload_match (simport_refines BsonS.ops bsem S cfg (s := BsonS.ofStream (BsonP.rootKind tr) i) h1 h2 t) (.inl fun _ => bskippable tr)

theorem sload_yaml (tr : YTree) (es : List YEv) :
    sload YamlP.ops S cfg t (YamlP.ofEvents ([.streamStart, .docStart] ++ yevents tr ++ .docEnd :: es)) = impS ysem S cfg tr t ⟨[], []⟩ := by
  obtain ⟨s1, h1, h2⟩ := ydoc_presents tr es
  exact sload_match (simport_refines YamlP.ops ysem S cfg h1 h2 t) (.inl fun _ => yskip tr)

section
variable (hx : cfg.strict = .Exact)
include hx

theorem sload_json_ends (j : Indet) (hT : SSoundTypes S true false) (hS : SSound S.env true false t) (b : Bytes) (conv : Bool) :
    sload (opsJ j) S cfg t (JsonP.ofBytes b conv) ≠ .ub :=
  sload_ends (simport_ends (JEnds.json_ends_indet j cfg.strict) rfl hx hT t hS _ [] (.ok fun _ => ⟨JEnds.fresh_I b conv, rfl, rfl⟩))

theorem sload_json_stream_ends (hT : SSoundTypes S true false) (hS : SSound S.env true false t) (i : IStr) (hi : i.pos ≤ i.data.length)
    (hw : i.data.getLast? ≠ some 0x5C) (conv : Bool) : sload JsonS.ops S cfg t (JsonS.ofStream i conv) ≠ .ub :=
  sload_ends (simport_ends (SEnds.jsonS_ends cfg.strict) rfl hx hT t hS _ [] (by
    rw [SEnds.start_token]
    exact .ok fun _ => ⟨SEnds.fresh_I hi hw conv, rfl, rfl⟩))

theorem sload_bson_ends (j : BStrIndet) (hT : SSoundTypes S true true) (hS : SSound S.env true true t) (b : Bytes) (c : BCont) :
    sload (BStrJ.ops j) S cfg t (BsonP.ofBytes c b) ≠ .ub :=
  sload_ends (simport_ends (BStrEnds.bson_ends j (by rw [hx]; simp)) rfl hx hT t hS _ [] (by
    show Safe _ (do let (t, s) ← BStrJ.getNextToken j (BsonP.ofBytes c b); return (t, (⟨s, .Error, .Error⟩ : PI BsonP)))
    exact (BStrEnds.start_inv j c b).bind fun x hx => .ok fun _ => ⟨hx, rfl, rfl⟩))

theorem sload_bson_stream_ends (j : BIndet) (hT : SSoundTypes S true true) (hS : SSound S.env true true t) (i : IStr) (c : BCont) :
    sload (BJ.ops j) S cfg t (BsonS.ofStream c i) ≠ .ub :=
  sload_ends (simport_ends (BEnds.bson_ends j _) rfl hx hT t hS _ [] (by
    show Safe _ (do let (t, s) ← BJ.getNextToken j (BsonS.ofStream c i); return (t, (⟨s, .Error, .Error⟩ : PI BsonS)))
    exact (BEnds.start_inv j c i).bind fun x hx => .ok fun _ => ⟨hx, rfl, rfl⟩))

theorem sload_yaml_ends (hT : SSoundTypes S true true) (hS : SSound S.env true true t) (es : List YEv) (hc : Closes [] es) :
    sload YamlP.ops S cfg t (YamlP.ofEvents es) ≠ .ub :=
  sload_ends (simport_ends (YEnds.yaml_ends _) rfl hx hT t hS _ _ (YEnds.start_inv es hc))
end
end

end Thors
