import Verif.Proofs.StreamPresents
import Verif.Proofs.JsonImport
import Verif.Proofs.ImpMono
import Verif.Proofs.FloatValue
/-
Whole JSON documents in a stream.
-/
namespace Thors
open Spec StrIn

theorem impScalar_num (env : Env) (num conv : Bool) (x : JScalar) : ∀ (ty : Ty) (old : Val),
    impScalar (jssemN num conv) env x ty old = impScalar (jssem conv) env x ty old
  | .int k, old => rfl
  | .flt f, old => rfl
  | .bool, old => rfl
  | .str, old => rfl
  | .opt t, old => by simp only [impScalar, impScalar_num env num conv x t]
  | .uptr t, old => by simp only [impScalar, impScalar_num env num conv x t]; rfl
  | .pptr _, old => rfl
  | .named _, old => rfl
  | .seq _ _, old => rfl
  | .arr _ _, old => rfl
  | .smap _, old => rfl
  | .mmap _, old => rfl
  | .umap _, old => rfl

theorem impScalar_no_ub (env : Env) (conv : Bool) (x : JScalar) : ∀ (ty : Ty) (old : Val), impScalar (jssem conv) env x ty old ≠ .ub
  | .int k, old => by cases x <;> simp [impScalar, jssem, throwStd]
  | .flt f, old => by
    simp only [impScalar, jssem]
    cases x.number <;> simp [throwStd]
  | .bool, old => by cases x <;> simp [impScalar, jssem, throwStd]
  | .str, old => by cases x <;> simp [impScalar, jssem, throwStd]
  | .opt t, old => by
    have := impScalar_no_ub env conv x t (old.contentOr (t.default env))
    simp only [impScalar]
    cases h : impScalar (jssem conv) env x t (old.contentOr (t.default env)) with
    | ub => exact absurd h this
    | ok a => simp
    | throw e => simp
  | .uptr t, old => by
    have := impScalar_no_ub env conv x t (t.default env)
    simp only [impScalar]
    split
    · simp
    · cases h : impScalar (jssem conv) env x t (t.default env) with
      | ub => exact absurd h this
      | ok a => simp
      | throw e => simp
  | .pptr _, old => by simp only [impScalar]; split <;> simp [throwStd]
  | .named i, old => by
    simp only [impScalar]
    cases env.defs i with
    | enum t =>
      cases x <;> simp [jssem, throwStd]
      split <;> simp
    | _ => simp [throwStd]
  | .seq _ _, old => by simp [impScalar, throwStd]
  | .arr _ _, old => by simp [impScalar, throwStd]
  | .smap _, old => by simp [impScalar, throwStd]
  | .mmap _, old => by simp [impScalar, throwStd]
  | .umap _, old => by simp [impScalar, throwStd]

/-- A value in a stream, for a client that imports it. -/
theorem deser_stream (env : Env) (cfg : Cfg) {conv : Bool} {v : JTree} {w tv post : Bytes} (hw : Ws w) (hv : JText codePair v tv)
    (hp : Ends v post) {s : JsonS} (hs : AtJS conv ⟨.Done, .Init, [], true⟩ (w ++ tv ++ post) s) (ty : Ty) (old : Val) :
    Match (Sk cfg (v.skippable (jssem conv))) (AtJS conv ctlDone post) (deser JsonS.ops env cfg ty old (PI.init s)) (imp (jssem conv) env cfg v ty old) := by
  cases v with
  | scalar x =>
    have h := presents_stream false conv _ tv hv ⟨.Done, .Init, [], true⟩ w post s (.init hw) ⟨hp, by simp⟩ hs
    have h2 := deser_presents JsonS.ops (jssemN false conv) env cfg h ty old
    have e : imp (jssemN false conv) env cfg (.scalar x) ty old = imp (jssem conv) env cfg (.scalar x) ty old := impScalar_num env false conv x ty old
    rw [e] at h2
    have hn := impScalar_no_ub env conv x ty old
    cases h3 : imp (jssem conv) env cfg (.scalar x) ty old with
    | ok a => rw [h3] at h2; exact h2
    | throw a => rw [h3] at h2; exact h2
    | ub => exact absurd h3 hn
  | arr vs =>
    have h := presents_stream true conv _ tv hv ⟨.Done, .Init, [], true⟩ w post s (.init hw) trivial hs
    exact deser_presents JsonS.ops (jssem conv) env cfg h ty old
  | obj ms =>
    have h := presents_stream true conv _ tv hv ⟨.Done, .Init, [], true⟩ w post s (.init hw) trivial hs
    exact deser_presents JsonS.ops (jssem conv) env cfg h ty old

theorem stream_start {i : IStr} {conv : Bool} {text : Bytes} (hi : OkS text i) :
    AtJS conv ⟨.Done, .Init, [], true⟩ text ⟨(JsonS.ofStream i conv).lex, ⟨.Done, .Init, [], true⟩⟩ := ⟨rfl, hi, rfl⟩

theorem stream_import_match (env : Env) (cfg : Cfg) {conv : Bool} {v : JTree} {w tv post : Bytes} (hw : Ws w) (hv : JText codePair v tv)
    (hp : Ends v post) {i : IStr} (hi : OkS (w ++ tv ++ post) i) (ty : Ty) (old : Val) :
    Match (Sk cfg (v.skippable (jssem conv))) (AtJS conv ctlEnd post) (importValue JsonS.ops env cfg ty old (PI.init (JsonS.ofStream i conv)))
      (imp (jssem conv) env cfg v ty old) := by
  have h := deser_stream env cfg hw hv hp (stream_start (conv := conv) hi) ty old
  have h0 : (PI.init (JsonS.ofStream i conv)).getToken JsonS.ops = .ok (.DocStart, PI.init ⟨(JsonS.ofStream i conv).lex, ⟨.Done, .Init, [], true⟩⟩) := rfl
  unfold importValue
  rw [h0]
  simp only [Res.ok_bind, ne_eq, not_true_eq_false, if_false]
  cases h3 : imp (jssem conv) env cfg v ty old with
  | ok a =>
    rw [h3] at h
    obtain ⟨⟨l, c⟩, e, hc, h1, h2⟩ := h
    simp only at hc
    subst hc
    rw [e]
    exact ⟨⟨l, ctlEnd⟩, rfl, rfl, h1, h2⟩
  | throw a =>
    rw [h3] at h
    rw [show deser _ _ _ _ _ _ = _ from h]
    rfl
  | ub =>
    rw [h3] at h
    intro hk
    rw [h hk]
    rfl

/-- Importing a document from a stream, and where the stream then stands. -/
theorem jsonStreamImport_doc (env : Env) (cfg : Cfg) {conv : Bool} {v : JTree} {w tv post : Bytes} (hw : Ws w) (hv : JText codePair v tv)
    (hp : Ends v post) {i : IStr} (hi : OkS (w ++ tv ++ post) i) (ty : Ty) (old x : Val) (hx : imp (jssem conv) env cfg v ty old = .ok x) :
    ∃ i', jsonStreamImport env cfg conv ty old i = .ok (x, i') ∧ OkS post i' := by
  have h := stream_import_match env cfg hw hv hp hi (conv := conv) ty old
  rw [hx] at h
  obtain ⟨⟨l, c⟩, e, -, h1, -⟩ := h
  refine ⟨l.inp, ?_, h1⟩
  unfold jsonStreamImport
  rw [e]
  rfl

theorem jsonStreamImport_throw (env : Env) (cfg : Cfg) {conv : Bool} {v : JTree} {w tv post : Bytes} (hw : Ws w) (hv : JText codePair v tv)
    (hp : Ends v post) {i : IStr} (hi : OkS (w ++ tv ++ post) i) (ty : Ty) (old : Val) (e : Exc) (hx : imp (jssem conv) env cfg v ty old = .throw e) :
    jsonStreamImport env cfg conv ty old i = .throw e := by
  have h := stream_import_match env cfg hw hv hp hi (conv := conv) ty old
  rw [hx] at h
  unfold jsonStreamImport
  rw [show importValue _ _ _ _ _ _ = _ from h]
  rfl

/-! ### Strings and streams -/

/-- The scalar is as its text says. -/
def LitOk : JScalar → Prop
  | .int t i => IntLit t i
  | _ => True

mutual
theorem shape_refl {P : JScalar → Prop} : ∀ v : JTree, (∀ t, JText codePair v t → (∀ x t, ScalarText codePair x t → P x) →
    SameShape Eq (fun x y => x = y ∧ P x) v v)
  | .scalar x => fun t h hP => ⟨rfl, hP x t h⟩
  | .arr [] => fun t h hP => trivial
  | .arr (v :: vs) => fun t h hP => by
    obtain ⟨ps, hps, -⟩ := h
    exact shape_refl_elems (v :: vs) ps hps hP
  | .obj [] => fun t h hP => trivial
  | .obj (m :: ms) => fun t h hP => by
    obtain ⟨ps, hps, -⟩ := h
    exact shape_refl_members (m :: ms) ps hps hP
theorem shape_refl_elems {P : JScalar → Prop} : ∀ vs : List JTree, ∀ ps, JText.elems codePair vs ps → (∀ x t, ScalarText codePair x t → P x) →
    SameShape.elems Eq (fun x y => x = y ∧ P x) vs vs
  | [], _, _, _ => trivial
  | v :: vs, ps, h, hP => by
    obtain ⟨w1, tv, w2, ps', -, -, htv, hps', -⟩ := h
    exact ⟨shape_refl v tv htv hP, shape_refl_elems vs ps' hps' hP⟩
theorem shape_refl_members {P : JScalar → Prop} : ∀ ms : List (JStr × JTree), ∀ ps, JText.members codePair ms ps → (∀ x t, ScalarText codePair x t → P x) →
    SameShape.members Eq (fun x y => x = y ∧ P x) ms ms
  | [], _, _, _ => trivial
  | (k, v) :: ms, ps, h, hP => by
    obtain ⟨w1, w2, w3, tv, w4, ps', -, -, -, -, -, htv, hps', -⟩ := h
    exact ⟨rfl, shape_refl v tv htv hP, shape_refl_members ms ps' hps' hP⟩
end

theorem scalar_litOk {x : JScalar} {t : Bytes} (h : ScalarText codePair x t) : LitOk x := by
  cases x with
  | int t i => obtain ⟨rfl, h, -⟩ := h; exact h
  | _ => trivial

/-- A literal in range is read from a stream as it is. -/
theorem streamInt_fits {k : IntKind} (hk : 0 < k.bits) {t : Bytes} {i : Int} (h : IntLit t i) (hf : InRange k i)
    (hs : ¬ (k.signed = false ∧ t.head? = some 0x2D)) : streamInt k t i = i := by
  obtain ⟨b, hb⟩ : ∃ b, k.bits = b + 1 := ⟨k.bits - 1, by omega⟩
  have hM : (2 : Nat) ^ (b + 1) = 2 * 2 ^ b := by rw [Nat.pow_succ]; omega
  have hMi : (2 : Int) ^ (b + 1) = 2 * 2 ^ b := by rw [Int.pow_succ]; omega
  have hc : ((2 ^ b : Nat) : Int) = (2 : Int) ^ b := by rw [Int.natCast_pow]; rfl
  have hpos : 0 < 2 ^ b := Nat.two_pow_pos b
  unfold streamInt asSigned
  rw [← fits_iff] at hf
  unfold IntKind.fits IntKind.lo IntKind.hi at hf
  simp only [hb, Nat.add_sub_cancel, hM, hMi, ← hc] at hf ⊢
  generalize 2 ^ b = M at *
  have hneg : (t.head? = some 0x2D ↔ ∃ n : Nat, i = -(n : Int) ∧ t.head? = some 0x2D) ∧ (t.head? ≠ some 0x2D → 0 ≤ i) := by
    cases h with
    | pos h =>
      rename_i n
      obtain ⟨d, u, rfl, hd⟩ := digits_head ⟨_, h⟩
      have := (digit_ne hd).1
      simp [this]
    | neg h => rename_i n; exact ⟨⟨fun h => ⟨n, rfl, h⟩, fun h => h.choose_spec.2⟩, fun h => absurd rfl h⟩
  cases hsg : k.signed with
  | true =>
    simp only [hsg, if_true] at hf ⊢
    by_cases hh : t.head? = some 0x2D
    · obtain ⟨n, rfl, -⟩ := hneg.1.1 hh
      simp only [hh, decide_true, if_true, Int.natAbs_neg, Int.natAbs_natCast]
      rw [Nat.min_eq_left (by omega)]
      by_cases hn : n = 0
      · subst hn; simp; omega
      · have : -(n : Int) % (2 * (M : Int)) = 2 * M - n := by
          rw [show -(n : Int) = (2 * (M : Int) - n) + (2 * (M : Int)) * (-1) by rw [Int.mul_neg, Int.mul_one]; omega, Int.add_mul_emod_self_left]
          exact Int.emod_eq_of_lt (by omega) (by omega)
        rw [this, if_neg (by omega)]
        omega
    · have h0 := hneg.2 hh
      simp only [hh, decide_false, Bool.false_eq_true, if_false]
      rw [Nat.min_eq_left (by omega), Int.natAbs_of_nonneg h0, Int.emod_eq_of_lt h0 (by omega), if_pos (by omega)]
  | false =>
    have hh : t.head? ≠ some 0x2D := fun h => hs ⟨hsg, h⟩
    have h0 := hneg.2 hh
    simp only [hsg, Bool.false_eq_true, if_false] at hf ⊢
    rw [if_neg (by omega)]
    simp only [hh, decide_false, Bool.false_eq_true, if_false]
    omega

/-- Whatever can be read from a string can be read from a stream. -/
theorem streamFlt_toFlt {f : FKind} {d : Decimal} {v : Flt} (h : d.toFlt f = some v) : streamFlt f d = v := by
  obtain ⟨h1, h2, -⟩ := toFlt_some h
  unfold streamFlt
  rw [if_neg (by omega), h1]

theorem string_readsLike_stream (F : FKind → Prop) (conv : Bool) : ReadsLike usual F (jsem conv) (jssem conv) Eq (fun x y => x = y ∧ LitOk x) where
  key k l h := by rw [h]; rfl
  keySkips k l h hs := by
    subst h
    simp only [jsem, jssem, JStr.skips, JStr.streamSkips, Bool.and_eq_true] at hs ⊢
    exact hs.1
  null x y h := by rw [h.1]; rfl
  int x y k i hk h e := by
    obtain ⟨rfl, h⟩ := h
    cases x with
    | int t j =>
      simp only [jsem] at e
      split at e
      · cases e
      · rename_i hs
        split at e
        · rename_i hf
          cases e
          simp only [jssem]
          rw [streamInt_fits hk.1 h hf hs]
        · cases e
    | _ => simp [jsem, throwStd] at e
  flt x y f v hf h e := by
    obtain ⟨rfl, -⟩ := h
    simp only [jsem] at e
    simp only [jssem]
    cases hn : x.number with
    | none => rw [hn] at e; cases e
    | some d =>
      rw [hn] at e
      simp only at e ⊢
      cases ht : d.toFlt f with
      | none => rw [ht] at e; cases e
      | some w => rw [ht] at e; cases e; rw [streamFlt_toFlt ht]
  bool x y b h e := by rw [← h.1]; exact e
  str x y s h e := by rw [← h.1]; exact e
  skips x y h hs := by
    obtain ⟨rfl, -⟩ := h
    cases x with
    | str s =>
      simp only [jsem, jssem, JStr.skips, JStr.streamSkips, Bool.and_eq_true] at hs ⊢
      exact hs.1
    | _ => rfl

theorem imp_string_stream (env : Env) (cfg : Cfg) {conv : Bool} (he : env.ints usual) {v : JTree} {tv : Bytes} (hv : JText codePair v tv) (ty : Ty) (ht : ty.ints usual)
    (old x : Val) (h : imp (jsem conv) env cfg v ty old = .ok x) : imp (jssem conv) env cfg v ty old = .ok x :=
  imp_mono env cfg he (string_readsLike_stream _ conv) v v (shape_refl v tv hv fun _ _ => scalar_litOk) ty old ht x h

mutual
theorem shape_every {P : JScalar → Prop} {Q : JStr → Prop} : ∀ (v : JTree) (t : Bytes), JText codePair v t → Every P Q v →
    SameShape (fun k l => k = l ∧ Q k) (fun x y => x = y ∧ LitOk x ∧ P x) v v
  | .scalar x, t, h, hP => ⟨rfl, scalar_litOk h, hP⟩
  | .arr [], t, h, hP => trivial
  | .arr (v :: vs), t, h, hP => by
    obtain ⟨ps, hps, -⟩ := h
    exact shape_every_elems (v :: vs) ps hps hP
  | .obj [], t, h, hP => trivial
  | .obj (m :: ms), t, h, hP => by
    obtain ⟨ps, hps, -⟩ := h
    exact shape_every_members (m :: ms) ps hps hP
theorem shape_every_elems {P : JScalar → Prop} {Q : JStr → Prop} : ∀ (vs : List JTree) (ps : List Bytes), JText.elems codePair vs ps → Every.elems P Q vs →
    SameShape.elems (fun k l => k = l ∧ Q k) (fun x y => x = y ∧ LitOk x ∧ P x) vs vs
  | [], _, _, _ => trivial
  | v :: vs, ps, h, hP => by
    obtain ⟨w1, tv, w2, ps', -, -, htv, hps', -⟩ := h
    exact ⟨shape_every v tv htv hP.1, shape_every_elems vs ps' hps' hP.2⟩
theorem shape_every_members {P : JScalar → Prop} {Q : JStr → Prop} : ∀ (ms : List (JStr × JTree)) (ps : List Bytes), JText.members codePair ms ps → Every.members P Q ms →
    SameShape.members (fun k l => k = l ∧ Q k) (fun x y => x = y ∧ LitOk x ∧ P x) ms ms
  | [], _, _, _ => trivial
  | (k, v) :: ms, ps, h, hP => by
    obtain ⟨w1, w2, w3, tv, w4, ps', -, -, -, -, -, htv, hps', -⟩ := h
    exact ⟨⟨rfl, hP.1⟩, shape_every v tv htv hP.2.1, shape_every_members ms ps' hps' hP.2.2⟩
end

theorem noFF_skips {s : JStr} (h1 : (0xFF : Byte) ∉ s.raw) (h2 : s.streamSkips = true) : s.skips = true := by
  unfold JStr.skips
  unfold JStr.streamSkips at h2
  simp only [Bool.and_eq_true, h2, true_and]
  simp [h1]

/-- In range, whatever can be read from a stream can be read from a string. -/
theorem stream_readsLike_string (P : IntKind → Prop) (hP : ∀ k, P k → usual k) (F : FKind → Prop) (hF : ∀ f, F f → 0 < f.prec) (conv : Bool) :
    ReadsLike P F (jssem conv) (jsem conv) (fun k l => k = l ∧ (0xFF : Byte) ∉ k.raw) (fun x y => x = y ∧ LitOk x ∧ inRange P F x) where
  key k l h := by rw [h.1]; rfl
  keySkips k l h hs := by
    obtain ⟨rfl, h⟩ := h
    exact noFF_skips h hs
  null x y h := by rw [h.1]; rfl
  int x y k i hk h e := by
    obtain ⟨rfl, h, hr⟩ := h
    cases x with
    | int t j =>
      obtain ⟨hf, hs⟩ := hr.1 k hk
      have hs' : ¬ (k.signed = false ∧ t.head? = some 0x2D) := fun h => hs h.1 h.2
      simp only [jssem, Res.ok.injEq, streamInt_fits (hP k hk).1 h hf hs'] at e
      simp only [jsem]
      rw [if_neg hs', if_pos hf, e]
    | _ => simp [jssem, throwStd] at e
  flt x y f v hf h e := by
    obtain ⟨rfl, -, hr⟩ := h
    simp only [jssem] at e
    simp only [jsem]
    cases hn : x.number with
    | none => rw [hn] at e; cases e
    | some d =>
      rw [hn] at e
      simp only [Res.ok.injEq] at e ⊢
      obtain ⟨h1, h2⟩ := hr.2 d hn f hf
      obtain ⟨w, hw⟩ := toFlt_range (hF f hf) h1 h2
      rw [hw, ← e, streamFlt_toFlt hw]
  bool x y b h e := by rw [← h.1]; exact e
  str x y s h e := by rw [← h.1]; exact e
  skips x y h hs := by
    obtain ⟨rfl, -, h⟩ := h
    cases x with
    | str s => exact noFF_skips h.1 hs
    | _ => rfl

theorem imp_stream_string (env : Env) (cfg : Cfg) {conv : Bool} {P : IntKind → Prop} (hP : ∀ k, P k → usual k) {F : FKind → Prop} (hF : ∀ f, F f → 0 < f.prec) (he : env.ints P F) {v : JTree} {tv : Bytes}
    (hv : JText codePair v tv) (hr : Every (inRange P F) (fun k => (0xFF : Byte) ∉ k.raw) v) (ty : Ty) (ht : ty.ints P F)
    (old x : Val) (h : imp (jssem conv) env cfg v ty old = .ok x) : imp (jsem conv) env cfg v ty old = .ok x :=
  imp_mono env cfg he (stream_readsLike_string P hP F hF conv) v v (shape_every v tv hv hr) ty old ht x h

/-- From the import of a string to the import of the tree. -/
theorem imp_of_jsonImport (env : Env) (cfg : Cfg) {conv : Bool} {v : JTree} {w tv post : Bytes} (hw : Ws w) (hv : JText codePair v tv) (hp : Ends v post)
    (ty : Ty) (old x : Val) (hk : cfg.strict = .Weak → v.skippable (jsem conv) = true)
    (h : jsonImport env cfg conv ty old (w ++ tv ++ post) = .ok x) : imp (jsem conv) env cfg v ty old = .ok x := by
  rw [jsonImport_post env cfg hw hv hp ty old (.inl hk)] at h
  exact h

/-- From the import of a stream to the import of the tree. -/
theorem imp_of_streamImport (env : Env) (cfg : Cfg) {conv : Bool} {v : JTree} {w tv post : Bytes} (hw : Ws w) (hv : JText codePair v tv) (hp : Ends v post)
    {i i' : IStr} (hi : OkS (w ++ tv ++ post) i) (ty : Ty) (old x : Val) (hk : cfg.strict = .Weak → v.skippable (jssem conv) = true)
    (h : jsonStreamImport env cfg conv ty old i = .ok (x, i')) : imp (jssem conv) env cfg v ty old = .ok x := by
  have hm := stream_import_match env cfg hw hv hp hi (conv := conv) ty old
  unfold jsonStreamImport at h
  cases h3 : imp (jssem conv) env cfg v ty old with
  | ok a =>
    rw [h3] at hm
    obtain ⟨s, e, -⟩ := hm
    rw [e] at h
    simp only [Res.ok_bind, Res.pure_eq, Res.ok.injEq, Prod.mk.injEq] at h
    rw [h.1]
  | throw a =>
    rw [h3] at hm
    rw [show importValue _ _ _ _ _ _ = _ from hm] at h
    cases h
  | ub =>
    rw [h3] at hm
    rw [hm hk] at h
    cases h

/-! ### Success and trailing data -/

theorem spaces_le (t : Bytes) : spaces t ≤ t.length := by
  induction t with
  | nil => simp [spaces]
  | cons c t ih => simp only [spaces, List.length_cons]; split <;> omega

theorem readCharS_fail {i : IStr} {t : Bytes} (h : OkS t i) : (i.readChar).2.fail = decide (spaces t = t.length) := by
  have hr := h.1.rest
  unfold IStr.rest at hr
  have hl := ats_len h.1
  unfold IStr.readChar
  cases t with
  | nil =>
    simp only [List.length_nil, spaces, decide_true]
    split
    · rfl
    · rw [hr]
      rw [if_neg (by have : spaces ([] : Bytes) = 0 := rfl; simp at hl; omega)]
  | cons c t =>
    rw [if_neg (by simp [ats_good h.1]), hr]
    have := spaces_le (c :: t)
    by_cases he : spaces (c :: t) = (c :: t).length
    · rw [if_neg (by omega)]; simp [he]
    · rw [if_pos (by omega)]; simp only [decide_eq_false he, h.2]

end Thors
