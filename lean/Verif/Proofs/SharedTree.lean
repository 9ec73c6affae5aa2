import Verif.Spec.SharedTree
import Verif.Proofs.Presents
import Verif.Proofs.Layers
/-
Importing a document into a type with shared pointers does what `impS` says, for every parser that presents the document.
-/
namespace Thors
open Spec StrIn

variable {σ K X : Type} (o : POps σ) (sem : ScalarSem K X) (S : SEnv) (cfg : Cfg)

theorem getShared_pointer (t : STy) (h : Handle) (st : Loaded) : getShared t h.name h.data st = pointer t h st := by
  obtain ⟨n, d⟩ := h
  unfold getShared pointer
  cases n <;> cases d <;> rfl

/-- The refinement statement for one tree. -/
def RefinesS (tr : Tr K X) : Prop :=
  ∀ (Q : σ → Prop) (s : σ) (t : STy) (st : Loaded) (p : PI σ), Gets o p tr.tok s → After o sem tr Q s →
    Match (Sk cfg (tr.skippable sem)) Q (sdeser o S cfg t st p) (impS sem S cfg tr t st)

theorem sdeser_elems (ts : List (Tr K X)) (ih : ∀ t ∈ ts, RefinesS o sem S cfg t) (t : STy) :
    ∀ {Q : σ → Prop} {s : σ} (vs : List SVal) (st : Loaded), After.elems o sem ts Q s →
      Match (Sk cfg (Tr.skippable.all sem ts)) Q (sdeserVec o S cfg t vs st (PI.init s)) (impS.elems sem S cfg ts t vs st) := by
  induction ts with
  | nil =>
    intro Q s vs st ⟨s1, h1, h2⟩
    rw [sdeserVec, gets_next o h1]
    exact match_ok h2
  | cons tr ts ih2 =>
    intro Q s vs st ⟨s1, h1, h2⟩
    rw [sdeserVec, gets_next o h1, impS.elems]
    simp only [Res.ok_bind]
    rw [if_neg (by cases tr <;> simp [Tr.tok])]
    simp only [Tr.skippable.all, sk_and]
    refine match_bind (ih tr (by simp) _ _ _ _ _ (gets_pushed o (tok_ne_error tr)) h2) (fun h => h.1) fun v s hs => ?_
    exact match_weaken (ih2 (fun t ht => ih t (by simp [ht])) (vs ++ [v.1]) v.2 hs) (fun h => h.2)

theorem sdeser_members (decl : List (Bytes × STy)) (ms : List (K × Tr K X)) (ih : ∀ m ∈ ms, RefinesS o sem S cfg m.2) :
    ∀ {Q : σ → Prop} {s : σ} (found : List Bytes) (fs : List SVal) (st : Loaded), After.members o sem ms Q s →
      Match (Sk cfg (Tr.skippable.allM sem ms)) Q (sdeserMembers o S cfg decl found fs st (PI.init s)) (impS.members sem S cfg ms decl found fs st) := by
  induction ms with
  | nil =>
    intro Q s found fs st ⟨s1, h1, h2⟩
    rw [sdeserMembers, gets_next o h1, impS.members]
    simp only [Res.ok_bind, if_true]
    split
    · exact match_throw
    · exact match_ok h2
  | cons m ms ih2 =>
    obtain ⟨k, tr⟩ := m
    intro Q s found fs st ⟨s1, h1, ⟨s2, h2, s3, h3, h4⟩, _⟩
    rw [sdeserMembers, gets_next o h1, impS.members]
    simp only [Res.ok_bind]
    rw [if_neg (by simp)]
    show Match _ Q (PI.lift _ (o.getKey s1) >>= _) _
    rw [h2]
    simp only [Tr.skippable.allM, sk_and]
    have h2' := fun found fs st {s} hs => match_weaken (ih2 (fun t ht => ih t (by simp [ht])) (Q := Q) (s := s) found fs st hs)
      (c' := (Sk cfg (sem.keySkips k) ∧ Sk cfg (Tr.skippable sem tr)) ∧ Sk cfg (Tr.skippable.allM sem ms)) (fun h => h.2)
    simp only [PI.lift, Res.ok_bind, Res.pure_eq]
    cases smemberAt (sem.key k) decl 0 with
    | none =>
      simp only [PI.ignoreValue]
      by_cases hw : cfg.strict = .Weak
      · simp only [hw, ne_eq, not_true, if_false]
        by_cases hk : tr.skippable sem = true
        · obtain ⟨s4, h5, h6⟩ := skip_presents o sem hk ⟨s3, h3, h4⟩
          rw [if_neg (by rw [hk]; simp)]
          show Match _ Q ((ignoreTheValue o s2 >>= _) >>= _) _
          rw [h5]
          exact h2' _ _ _ h6
        · rw [if_pos (by simpa using hk)]
          exact fun h => absurd (h.1.2 hw) hk
      · simp only [hw, ne_eq, not_false_eq_true, if_true]
        exact match_throw
    | some r =>
      exact match_bind (ih (k, tr) (by simp) _ _ r.2 st _ (gets_next o h3) h4) (fun h => h.1.2) fun v s hs => h2' _ _ _ hs

theorem deleted_eq (h : Handle) (st : Loaded) : h.deleted st = release h.data st := by
  obtain ⟨n, d⟩ := h
  match d with
  | none | some none | some (some _) => rfl

theorem sdeser_info (t : STy) (ms : List (K × Tr K X)) (ih : ∀ m ∈ ms, RefinesS o sem S cfg m.2) :
    ∀ {Q : σ → Prop} {s : σ} (found : List Bytes) (h : Handle) (st : Loaded), After.members o sem ms Q s →
      Match (Sk cfg (Tr.skippable.allM sem ms)) Q
        (sdeserInfo o S cfg t found h.name h.data st (PI.init s) >>= fun x => do
          let r ← getShared t x.1.1 x.1.2.1 x.1.2.2
          return (r, x.2))
        (impS.info sem S cfg ms t found h st) := by
  induction ms with
  | nil =>
    intro Q s found h st ⟨s1, h1, h2⟩
    rw [sdeserInfo, gets_next o h1, impS.info]
    simp only [Res.ok_bind, if_true]
    split
    · exact match_throw
    · simp only [Res.pure_eq, Res.ok_bind]
      rw [getShared_pointer t h st]
      cases pointer t h st with
      | ok r => exact match_ok h2
      | throw e => exact match_throw
      | ub => exact match_ub
  | cons m ms ih2 =>
    obtain ⟨k, tr⟩ := m
    intro Q s found h st ⟨s1, h1, ⟨s2, h2, s3, h3, h4⟩, _⟩
    rw [sdeserInfo, gets_next o h1, impS.info]
    simp only [Res.ok_bind]
    rw [if_neg (by simp)]
    show Match _ Q ((PI.lift _ (o.getKey s1) >>= _) >>= _) _
    rw [h2]
    simp only [Tr.skippable.allM, sk_and]
    have hg := gets_next o h3
    have h2' := fun found h st {s} hs => match_weaken (ih2 (fun t ht => ih t (by simp [ht])) (Q := Q) (s := s) found h st hs)
      (c' := (Sk cfg (sem.keySkips k) ∧ Sk cfg (Tr.skippable sem tr)) ∧ Sk cfg (Tr.skippable.allM sem ms)) (fun h => h.2)
    rw [show (PI.init s1).lift (.ok (sem.key k, s2)) = .ok (sem.key k, PI.init s2) from rfl]
    simp only [Res.ok_bind]
    by_cases hk : sem.key k = infoName
    · simp only [hk, if_true]
      rw [hg]
      cases tr with
      | arr _ | obj _ => exact match_throw
      | scalar x =>
        rw [number]
        simp only [Tr.tok, ne_eq, not_true, if_false, Res.ok_bind, bind_assoc']
        exact match_reads (h4.2.1 intmax) fun n s hs => h2' (infoName :: found) ⟨some n, h.data⟩ st hs
    · simp only [hk, if_false]
      by_cases hd : sem.key k = infoData
      · simp only [hd, if_true]
        rw [hg]
        have other : o.isNull s3 = false → Match ((Sk cfg (sem.keySkips k) ∧ Sk cfg (Tr.skippable sem tr)) ∧ Sk cfg (Tr.skippable.allM sem ms)) Q
            ((if o.isNull s3 = true then do
                let s ← o.ignoreData s3
                sdeserInfo o S cfg t (infoData :: found) h.name (some none) (release h.data st) { PI.init s3 with inner := s }
              else do
                let x ← sdeser o S cfg t (release h.data st) ((PI.init s3).pushBackToken tr.tok)
                sdeserInfo o S cfg t (infoData :: found) h.name (some (some x.1.2.heap.length)) ⟨x.1.2.saved, x.1.2.heap ++ [x.1.1]⟩ x.2) >>= fun x => do
              let r ← getShared t x.1.1 x.1.2.1 x.1.2.2
              return (r, x.2))
            (do let (v, st) ← impS sem S cfg tr t (h.deleted st)
                impS.info sem S cfg ms t (infoData :: found) { h with data := some (some st.heap.length) } ⟨st.saved, st.heap ++ [v]⟩) := by
          intro hn
          simp only [hn, Bool.false_eq_true, if_false, bind_assoc']
          rw [deleted_eq]
          exact match_bind (ih (k, tr) (by simp) _ _ t _ _ (gets_pushed o (tok_ne_error tr)) h4) (fun h => h.1.2) fun v s hs => h2' _ ⟨h.name, _⟩ _ hs
        cases tr with
        | scalar x =>
          by_cases hn : sem.isNull x = true
          · simp only [Tr.isNull, hn, if_true]
            obtain ⟨s4, h5, h6⟩ := h4.2.2.2.2.1 (.inl hn)
            have e : o.isNull s3 = true := h4.1.trans hn
            simp only [Res.ok_bind, PI.init, e, if_true, h5]
            rw [deleted_eq]
            exact h2' _ ⟨h.name, some none⟩ _ h6
          · simp only [Tr.isNull, hn]
            exact other (by rw [h4.1]; simpa using hn)
        | arr ts => exact other h4.1
        | obj ns => exact other h4.1
      · simp only [hd, if_false, PI.ignoreValue]
        by_cases hw : cfg.strict = .Weak
        · simp only [hw, ne_eq, not_true, if_false]
          by_cases hk : tr.skippable sem = true
          · obtain ⟨s4, h5, h6⟩ := skip_presents o sem hk ⟨s3, h3, h4⟩
            rw [if_neg (by rw [hk]; simp)]
            show Match _ Q (((ignoreTheValue o s2 >>= _) >>= _) >>= _) _
            rw [h5]
            exact h2' _ h _ h6
          · rw [if_pos (by simpa using hk)]
            exact fun h => absurd (h.1.2 hw) hk
        · simp only [hw, ne_eq, not_false_eq_true, if_true]
          exact match_throw

/-- Refinement: reading a document into a value of any type does what `impS` says. -/
theorem sdeser_refines (tr : Tr K X) : RefinesS o sem S cfg tr := by
  have plain : ∀ (tr : Tr K X) (Q : σ → Prop) (s : σ) (t : Ty) (st : Loaded) (p : PI σ), Gets o p tr.tok s → After o sem tr Q s →
      Match (Sk cfg (tr.skippable sem)) Q (sdeser o S cfg (.plain t) st p) (impS sem S cfg tr (.plain t) st) := by
    intro tr Q s t st p hg ha
    rw [sdeser]
    have e : impS sem S cfg tr (.plain t) st = (do return (.plain (← imp sem S.env cfg tr t (t.default S.env)), st)) := by cases tr <;> rw [impS] <;> rfl
    rw [e]
    exact match_bind (deser_refines o sem S.env cfg tr Q s t _ p hg ha) id fun v s hs => match_ok hs
  induction tr using Spec.Tr.induct with
  | hs x =>
    intro Q s t st p hg ha
    cases t with
    | plain t => exact plain _ _ _ _ _ _ hg ha
    | vec t | cls c => rw [sdeser, hg, impS]; exact match_throw
    | shared t =>
      rw [sdeser, hg, impS]
      have h1 := ha.1
      cases hn : sem.isNull x with
      | true =>
        obtain ⟨s4, h5, h6⟩ := ha.2.2.2.2.1 (.inl hn)
        have e : o.isNull s = true := h1.trans hn
        simp only [Res.ok_bind, Tr.tok, PI.init, e, and_self, if_true, h5]
        exact match_ok h6
      | false =>
        have e : o.isNull s = false := h1.trans hn
        simp only [Res.ok_bind, Tr.tok, PI.init, e, Bool.false_eq_true, and_false, if_false]
        have hp := gets_pushed o (s := s) (t := .Value) (by simp)
        unfold Gets PI.init at hp
        rw [hp]
        exact match_throw
  | ha ts ih =>
    intro Q s t st p hg ha
    cases t with
    | plain t => exact plain _ _ _ _ _ _ hg ha
    | vec t => rw [sdeser, hg, impS]; exact sdeser_elems o sem S cfg ts ih t [] st ha.2
    | cls c => rw [sdeser, hg, impS]; exact match_throw
    | shared t =>
      rw [sdeser, hg, impS]
      · simp only [Res.ok_bind, Tr.tok, reduceCtorEq, false_and, if_false]
        rw [gets_pushed o (by simp)]
        exact match_throw
  | ho ms ih =>
    intro Q s t st p hg ha
    cases t with
    | plain t => exact plain _ _ _ _ _ _ hg ha
    | vec t => rw [sdeser, hg, impS]; exact match_throw
    | cls c => rw [sdeser, hg, impS]; exact sdeser_members o sem S cfg _ ms ih [] _ st ha.2
    | shared t =>
      rw [sdeser, hg, impS]
      simp only [Res.ok_bind, Tr.tok, reduceCtorEq, false_and, if_false]
      rw [gets_pushed o (by simp)]
      simp only [Res.ok_bind, ne_eq, not_true, if_false]
      exact sdeser_info o sem S cfg t ms ih [] ⟨none, none⟩ st ha.2

/-- The same for a whole document. -/
theorem simport_refines {tr : Tr K X} {Q : σ → Prop} {s s1 : σ} (h0 : o.next s = .ok (.DocStart, s1))
    (h : Presents o sem tr (fun s => ∃ s', o.next s = .ok (.DocEnd, s') ∧ Q s') s1) (t : STy) :
    Match (Sk cfg (tr.skippable sem)) Q (simportValue o S cfg t (PI.init s)) (impS sem S cfg tr t ⟨[], []⟩) := by
  obtain ⟨s2, h1, h2⟩ := h
  rw [simportValue, gets_next o h0]
  have := match_bind (c' := Sk cfg (tr.skippable sem)) (Q' := Q) (g := fun v => .ok v) (sdeser_refines o sem S cfg tr _ s2 t ⟨[], []⟩ _ (gets_next o h1) h2) id
    (f := fun x => do
      let (k, p) ← x.2.getToken o
      if k ≠ .DocEnd then throwStd else return (x.1, p)) (by
      intro a s ⟨s', h1, h2⟩
      simp only
      rw [gets_next o h1]
      exact match_ok h2)
  have he : (impS sem S cfg tr t ⟨[], []⟩ >>= fun v => Res.ok v) = impS sem S cfg tr t ⟨[], []⟩ := by
    cases impS sem S cfg tr t ⟨[], []⟩ <;> rfl
  rw [he] at this
  exact this

end Thors
