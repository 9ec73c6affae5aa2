import Verif.Proofs.SharedExport
import Verif.Proofs.RoundTrip
import Verif.Proofs.Restored
/-
Importing the document of a graph: the same graph, at other addresses.
-/
namespace Thors
open Spec StrIn

theorem rename_congr {φ ψ : Nat → Nat} : ∀ (v : SVal), (∀ b ∈ targets v, φ b = ψ b) → rename φ v = rename ψ v
  | .plain _, _ => rfl
  | .unset, _ => rfl
  | .handle _ none, _ => rfl
  | .handle _ (some a), h => by simp only [rename]; rw [h a (by simp [targets])]
  | .obj fs, h => by simp only [rename]; rw [all fs h]
  | .list vs, h => by simp only [rename]; rw [all vs h]
where
  all : ∀ (vs : List SVal), (∀ b ∈ targets.all vs, φ b = ψ b) → rename.all φ vs = rename.all ψ vs
  | [], _ => rfl
  | v :: vs, h => by
    simp only [rename.all]
    rw [rename_congr v fun b hb => h b (by simp [targets.all, hb]), all vs fun b hb => h b (by simp [targets.all, hb])]

section
variable {S : SEnv} {mk : Bytes} {cell : Nat → STy} {okKey : Bytes → Prop} {okAtom : Atom → Prop} {H : Nat → SVal}
variable {D : Nat → Prop} {rank : Nat → Nat}

/-- What was loaded so far are the objects in `done`; `φ` says where they are now. -/
structure Rel (cell : Nat → STy) (H : Nat → SVal) (st : Loaded) (done : List Nat) (φ : Nat → Nat) : Prop where
  saved : ∀ a ∈ done, st.saved.lookup (a : Int) = some (cell a, some (φ a))
  heap : ∀ a ∈ done, st.heap[φ a]? = some (rename φ (H a))
  closed : ∀ a ∈ done, ∀ b ∈ targets (H a), b ∈ done
  inj : ∀ a ∈ done, ∀ b ∈ done, φ a = φ b → a = b
  onto : ∀ i, i < st.heap.length → ∃ a ∈ done, φ a = i

variable {σ K X : Type} {o : POps σ} {sem : ScalarSem K X} {cfg : Cfg} {ek : Bytes → K} {ea : Atom → X}

/-- One more object. -/
theorem Rel.add {st : Loaded} {done : List Nat} {φ : Nat → Nat} (R : Rel cell H st done φ) {a : Nat} (ha : a ∉ done)
    (ht : ∀ b ∈ targets (H a), b ∈ done) :
    Rel cell H ⟨((a : Int), cell a, some st.heap.length) :: st.saved, st.heap ++ [rename φ (H a)]⟩ (a :: done)
      (fun b => if b = a then st.heap.length else φ b) := by
  have hne : ∀ b ∈ done, b ≠ a := fun b hb e => ha (e ▸ hb)
  have hlt : ∀ b ∈ done, φ b < st.heap.length := by
    intro b hb
    have := R.heap b hb
    exact (List.getElem?_eq_some_iff.1 this).1
  have hr : ∀ v, (∀ b ∈ targets v, b ∈ done) → rename (fun b => if b = a then st.heap.length else φ b) v = rename φ v :=
    fun v hv => rename_congr v fun b hb => by simp [hne b (hv b hb)]
  refine ⟨?_, ?_, ?_, ?_, ?_⟩
  · intro b hb
    rcases List.mem_cons.1 hb with rfl | hb
    · simp [List.lookup]
    · have : ((b : Int) == (a : Int)) = false := by
        simp only [beq_eq_false_iff_ne, ne_eq, Int.natCast_inj]; exact hne b hb
      simp [List.lookup, this, R.saved b hb, hne b hb]
  · intro b hb
    rcases List.mem_cons.1 hb with rfl | hb
    · simp [hr (H b) ht]
    · simp only [hne b hb, if_false]
      rw [List.getElem?_append_left (hlt b hb), R.heap b hb, hr (H b) (R.closed b hb)]
  · intro b hb c hc
    rcases List.mem_cons.1 hb with rfl | hb
    · exact List.mem_cons_of_mem _ (ht c hc)
    · exact List.mem_cons_of_mem _ (R.closed b hb c hc)
  · intro b hb c hc e
    rcases List.mem_cons.1 hb with rfl | hb <;> rcases List.mem_cons.1 hc with rfl | hc
    · rfl
    · simp only [if_true, hne c hc, if_false] at e
      have := hlt c hc; omega
    · rename_i hb'
      simp only [if_true, hne b hb', if_false] at e
      have := hlt b hb'; omega
    · simp only [hne b hb, hne c hc, if_false] at e
      exact R.inj b hb c hc e
  · intro i hi
    simp only [List.length_append, List.length_cons, List.length_nil, Nat.zero_add] at hi
    by_cases h : i = st.heap.length
    · exact ⟨a, by simp, by simp [h]⟩
    · obtain ⟨b, hb, e⟩ := R.onto i (by omega)
      exact ⟨b, by simp [hb], by simp [hne b hb, e]⟩

variable (o sem cfg ek ea S mk cell okKey okAtom H D)

/-- What is to be shown for a value and its document. -/
def Imports (t : STy) (v : SVal) (done : List Nat) (d : Doc) (done' : List Nat) : Prop :=
  ∀ φ st, Rel cell H st done φ → STyped S mk cell okKey okAtom t v → (∀ b ∈ targets v, D b) →
    ∀ (Q : σ → Prop) (s : σ) (p : PI σ), Gets o p (enc ek ea d).tok s → After o sem (enc ek ea d) Q s →
    ∃ s' st' φ', sdeser o S cfg t st p = .ok ((rename φ' v, st'), PI.init s') ∧ Q s' ∧ Rel cell H st' done' φ' ∧
      (∀ a ∈ done, φ' a = φ a ∧ a ∈ done') ∧ ∀ b ∈ targets v, b ∈ done'

def ImportsAll (t : STy) (vs : List SVal) (done : List Nat) (ds : List Doc) (done' : List Nat) : Prop :=
  ∀ φ st, Rel cell H st done φ → STyped.all S mk cell okKey okAtom t vs → (∀ b ∈ targets.all vs, D b) →
    ∀ (Q : σ → Prop) (s : σ) (pre : List SVal), After.elems o sem (enc.elems ek ea ds) Q s →
    ∃ s' st' φ', sdeserVec o S cfg t pre st (PI.init s) = .ok ((.list (pre ++ rename.all φ' vs), st'), PI.init s') ∧ Q s' ∧
      Rel cell H st' done' φ' ∧ (∀ a ∈ done, φ' a = φ a ∧ a ∈ done') ∧ ∀ b ∈ targets.all vs, b ∈ done'

def ImportsMembers (ms : List (Bytes × STy)) (vs : List SVal) (done : List Nat) (ds : List (Bytes × Doc)) (done' : List Nat) : Prop :=
  ∀ φ st, Rel cell H st done φ → STyped.members S mk cell okKey okAtom ms vs → (∀ b ∈ targets.all vs, D b) →
    (∀ m ∈ ms, okKey m.1) →
    ∀ (Q : σ → Prop) (s : σ) (bef : List (Bytes × STy)) (pre : List SVal) (found : List Bytes), bef.length = pre.length →
      ((bef ++ ms).map Prod.fst).Nodup → After.members o sem (enc.members ek ea ds) Q s →
    ∃ s' st' φ', sdeserMembers o S cfg (bef ++ ms) found (pre ++ ms.map fun _ => .unset) st (PI.init s) =
        .ok ((.obj (pre ++ rename.all φ' vs), st'), PI.init s') ∧ Q s' ∧
      Rel cell H st' done' φ' ∧ (∀ a ∈ done, φ' a = φ a ∧ a ∈ done') ∧ ∀ b ∈ targets.all vs, b ∈ done'

variable {o sem cfg ek ea S mk cell okKey okAtom H D}

theorem smemberAt_append {n : Bytes} {t : STy} (suf : List (Bytes × STy)) : ∀ (bef : List (Bytes × STy)) (i : Nat),
    ((bef ++ (n, t) :: suf).map Prod.fst).Nodup → smemberAt n (bef ++ (n, t) :: suf) i = some (i + bef.length, t)
  | [], i, _ => by simp [smemberAt]
  | (m, u) :: bef, i, h => by
    simp only [List.cons_append, List.map_cons, List.nodup_cons] at h
    have : m ≠ n := by
      rintro rfl
      exact h.1 (by simp)
    simp only [List.cons_append, smemberAt, if_neg this]
    rw [smemberAt_append suf bef (i + 1) h.2]
    simp [Nat.add_assoc, Nat.add_comm 1]

theorem enc_tok (d : Doc) : (enc ek ea d).tok = d.tok := by cases d <;> rfl

theorem sdoc_not_null {t : STy} {v : SVal} {done done' : List Nat} {d : Doc} (hn : snullable t = false) (h : SDoc S mk H t v done d done') :
    d ≠ .scalar .null := by
  cases h with
  | plain h => exact doc_not_null S.env mk _ _ _ (by simpa [snullable] using hn) h
  | null => simp [snullable] at hn
  | _ => simp

theorem sdoc_scalar {t : STy} {v : SVal} {done done' : List Nat} {x : Atom} (hnull : okAtom .null) (h : SDoc S mk H t v done (.scalar x) done')
    (ht : STyped S mk cell okKey okAtom t v) : okAtom x := by
  cases h with
  | plain h =>
    obtain ⟨-, d, hd, -, ha⟩ := ht
    rw [h] at hd
    cases hd
    exact ha
  | null => exact hnull

theorem intmax_fits {a : Nat} (h : a < 2 ^ 63) : InRange intmax (a : Int) := by
  simp [intmax, InRange]
  omega

section
variable (F : Faithful ek ea sem okKey okAtom) (hn : okKey infoName) (hd : okKey infoData)
  (hint : ∀ a : Nat, a < 2 ^ 63 → okAtom (.int intmax a)) (hnull : okAtom .null)
  (hg : GoodTypes S.env) (hnf : ∀ i c, S.env.defs i = .cls c → NoFilter c.traits) (hm : cfg.marker = mk)
  (hx : cfg.strict ≠ .Exact) (hc : GoodClasses S) (hck : ∀ c, ∀ m ∈ S.classes c, okKey m.1)
  (hD : ∀ a, D a → STyped S mk cell okKey okAtom (cell a) (H a) ∧ ∀ b ∈ targets (H a), D b)
include F hn hd hint hnull hg hnf hm hx hc hck hD

omit hd hnull hg hnf hm hx hc hck hD in
/-- The name of a shared pointer. -/
theorem info_name {a : Nat} (ha : a < 2 ^ 63) (t : STy) (st : Loaded) (ms : List (Bytes × Doc)) {Q : σ → Prop} {s : σ}
    (h : After.members o sem (enc.members ek ea ((infoName, .scalar (.int intmax a)) :: ms)) Q s) :
    ∃ s', sdeserInfo o S cfg t [] none none st (PI.init s) = sdeserInfo o S cfg t [infoName] (some a) none st (PI.init s') ∧
      After.members o sem (enc.members ek ea ms) Q s' := by
  obtain ⟨s1, h1, ⟨s2, h2, s3, h3, h4⟩, -⟩ := h
  have h5 := h4.2.1 intmax
  rw [F.int _ _ (hint a ha) (intmax_fits ha)] at h5
  obtain ⟨s4, h6, h7⟩ := h5
  refine ⟨s4, ?_, h7⟩
  rw [sdeserInfo, gets_next o h1]
  rw [F.key _ hn] at h2
  have e1 : (PI.init s1).lift (o.getKey (PI.init s1).inner) = .ok (infoName, PI.init s2) := by
    simp [PI.lift, PI.init, h2]
  have e2 : (PI.init s3).lift (o.getInt intmax (PI.init s3).inner) = .ok ((a : Int), PI.init s4) := by
    simp [PI.lift, PI.init, h6]
  have e3 := gets_next o h3
  simp only [Gets, enc, Tr.tok] at e3
  simp only [Res.ok_bind, e1, e3, e2]
  rfl

omit F hn hd hint hnull hg hnf hm hc hck hD in
theorem info_end (t : STy) (found : List Bytes) (nm : Option Int) (data : Option (Option Nat)) (st : Loaded) {Q : σ → Prop} {s : σ}
    (h : After.members o sem (enc.members ek ea ([] : List (Bytes × Doc))) Q s) :
    ∃ s', sdeserInfo o S cfg t found nm data st (PI.init s) = .ok ((nm, data, st), PI.init s') ∧ Q s' := by
  obtain ⟨s1, h1, h2⟩ := h
  refine ⟨s1, ?_, h2⟩
  rw [sdeserInfo, gets_next o h1]
  simp [hx]

set_option linter.unusedSectionVars false
mutual
theorem imports : ∀ {t : STy} {v : SVal} {done done' : List Nat} {d : Doc}, SDoc S mk H t v done d done' →
    Imports S mk cell okKey okAtom H D o sem cfg ek ea t v done d done'
  | _, _, done, _, d, .plain (t := t) (v := v) h => by
    intro φ st R ht htg Q s p hgt ha
    obtain ⟨hs, d', hd', hk, hat⟩ := ht
    rw [h] at hd'
    cases hd'
    have e := deser_refines o sem S.env cfg (enc ek ea d) Q s t (t.default S.env) p hgt ha
    rw [rt_val ek ea _ S.env cfg mk F hg hm (fun e => absurd e hx) v t _ d h hs (default_fresh S.env hg t) hk hat,
      restored_val S.env mk hg hnf v t _ hs (default_fresh S.env hg t)] at e
    obtain ⟨s', e, hq⟩ := e
    exact ⟨s', st, φ, by rw [sdeser, e]; rfl, hq, R, fun a ha => ⟨rfl, ha⟩, fun b hb => by simp [targets] at hb⟩
  | _, _, done, done', _, .list (t := t) (vs := vs) (ds := ds) h => by
    intro φ st R ht htg Q s p hgt ha
    obtain ⟨s', st', φ', e, hq, R', hf, hb⟩ := importsAll h φ st R ht htg Q s [] ha.2
    refine ⟨s', st', φ', ?_, hq, R', hf, hb⟩
    rw [sdeser, hgt]
    simp only [Res.ok_bind, enc, Tr.tok, ne_eq, not_true_eq_false, if_false]
    simpa [rename] using e
  | _, _, done, done', _, .obj (c := c) (fs := fs) (ms := ms) h => by
    intro φ st R ht htg Q s p hgt ha
    obtain ⟨s', st', φ', e, hq, R', hf, hb⟩ := importsMembers h φ st R ht htg (hck c) Q s [] [] [] rfl (by simpa using hc c) ha.2
    refine ⟨s', st', φ', ?_, hq, R', hf, hb⟩
    rw [sdeser, hgt]
    simp only [Res.ok_bind, enc, Tr.tok, ne_eq, not_true_eq_false, if_false]
    simpa [rename] using e
  | _, _, done, _, _, .null (t := t) (l := l) => by
    intro φ st R ht htg Q s p hgt ha
    have h0 : sem.isNull (ea .null) = true := (F.null _ hnull).2 rfl
    obtain ⟨s', e, hq⟩ := ha.2.2.2.2.1 (.inl h0)
    refine ⟨s', st, φ, ?_, hq, R, fun a ha => ⟨rfl, ha⟩, fun b hb => by simp [targets] at hb⟩
    rw [sdeser, hgt]
    have h1 : o.isNull (PI.init s).inner = true := ha.1.trans h0
    simp only [Res.ok_bind, enc, Tr.tok, h1, and_self, if_true]
    show (o.ignoreData s >>= _) = _
    rw [e]
    rfl
  | _, _, done, _, _, .again (t := t) (l := l) (a := a) hmem => by
    intro φ st R ht htg Q s p hgt ha
    obtain ⟨s1, e1, h1⟩ := info_name (S := S) (cfg := cfg) F hn hint ht.2.2 t st [] ha.2
    obtain ⟨s2, e2, h2⟩ := info_end (S := S) (cfg := cfg) (ek := ek) (ea := ea) (sem := sem) hx t [infoName] (some a) none st h1
    refine ⟨s2, st, φ, ?_, h2, R, fun a ha => ⟨rfl, ha⟩, fun b hb => by simp [targets] at hb; exact hb ▸ hmem⟩
    rw [sdeser, hgt]
    simp only [Res.ok_bind, enc, Tr.tok, reduceCtorEq, false_and, if_false]
    rw [gets_pushed o (by simp)]
    simp only [Res.ok_bind, ne_eq, not_true_eq_false, if_false, e1, e2, getShared, R.saved a hmem, ht.1, if_true]
    rfl
  | _, _, done, _, _, .first (t := t) (l := l) (a := a) (d := d) (done' := done1) hnew h => by
    intro φ st R ht htg Q s p hgt ha
    obtain ⟨s1, e1, h1⟩ := info_name (S := S) (cfg := cfg) F hn hint ht.2.2 t st _ ha.2
    obtain ⟨s2, g1, ⟨s3, g2, s4, g3, g4⟩, -⟩ := h1
    have hDa := hD a (htg a (by simp [targets]))
    obtain ⟨s5, st1, φ1, e2, h5, R1, hf1, hb1⟩ := imports h φ st R (ht.1 ▸ hDa.1) hDa.2 _ s4 ((PI.init s4).pushBackToken (enc ek ea d).tok)
      (gets_pushed o (tok_ne_error _)) g4
    obtain ⟨s6, e3, h6⟩ := info_end (S := S) (cfg := cfg) (ek := ek) (ea := ea) (sem := sem) hx t [infoData, infoName] (some a) (some (some st1.heap.length))
      { st1 with heap := st1.heap ++ [rename φ1 (H a)] } h5
    have hnn : o.isNull s4 = false := by
      have := sdoc_not_null ht.2.1 h
      cases d with
      | scalar x =>
        have hx0 : sem.isNull (ea x) = false := by
          have hok : okAtom x := sdoc_scalar hnull h (ht.1 ▸ hDa.1)
          cases hb : sem.isNull (ea x) with
          | false => rfl
          | true => exact absurd (congrArg Tr.scalar ((F.null x hok).1 hb)) this
        exact g4.1.trans hx0
      | arr ts => exact g4.1
      | obj ms => exact g4.1
    have R2 := R1.add hnew hb1
    refine ⟨s6, _, _, ?_, h6, R2, fun b hb => ⟨?_, by simp [(hf1 b hb).2]⟩, fun b hb => by simp [targets] at hb; simp [hb]⟩
    · rw [sdeser, hgt]
      simp only [Res.ok_bind, enc, Tr.tok, reduceCtorEq, false_and, if_false]
      rw [gets_pushed o (by simp)]
      simp only [Res.ok_bind, ne_eq, not_true_eq_false, if_false, e1]
      rw [sdeserInfo, gets_next o g1]
      rw [F.key _ hd] at g2
      have e4 : (PI.init s2).lift (o.getKey (PI.init s2).inner) = .ok (infoData, PI.init s3) := by
        simp [PI.lift, PI.init, g2]
      have e5 := gets_next o g3
      simp only [Gets] at e5
      have hne : infoData ≠ infoName := by decide
      have e6 : o.isNull (PI.init s4).inner = false := hnn
      simp only [Res.ok_bind, e4, e5, reduceCtorEq, if_false, hne, if_true, e6, Bool.false_eq_true, release, e2, e3, getShared]
      simp [rename, ← ht.1]
    · have : b ≠ a := fun e => hnew (e ▸ (hf1 b hb).2)
      simp only [this, if_false]
      exact (hf1 b hb).1
theorem importsAll : ∀ {t : STy} {vs : List SVal} {done done' : List Nat} {ds : List Doc}, SDocs S mk H t vs done ds done' →
    ImportsAll S mk cell okKey okAtom H D o sem cfg ek ea t vs done ds done'
  | _, _, _, _, _, .nil => by
    intro φ st R ht htg Q s pre ⟨s1, h1, h2⟩
    refine ⟨s1, st, φ, ?_, h2, R, fun a ha => ⟨rfl, ha⟩, fun b hb => by simp [targets.all] at hb⟩
    rw [sdeserVec, gets_next o h1]
    simp [rename.all]
  | _, _, _, _, _, .cons (t := t) (v := v) (vs := vs) (d := d) h hs => by
    intro φ st R ht htg Q s pre ⟨s1, h1, h2⟩
    obtain ⟨s2, st1, φ1, e1, q1, R1, hf1, hb1⟩ := imports h φ st R ht.1 (fun b hb => htg b (by simp [targets.all, hb])) _ s1
      ((PI.init s1).pushBackToken (enc ek ea d).tok) (gets_pushed o (tok_ne_error _)) h2
    obtain ⟨s3, st2, φ2, e2, q2, R2, hf2, hb2⟩ := importsAll hs φ1 st1 R1 ht.2 (fun b hb => htg b (by simp [targets.all, hb])) _ s2
      (pre ++ [rename φ1 v]) q1
    refine ⟨s3, st2, φ2, ?_, q2, R2, fun a ha => ⟨(hf2 a (hf1 a ha).2).1.trans (hf1 a ha).1, (hf2 a (hf1 a ha).2).2⟩, ?_⟩
    · rw [sdeserVec, gets_next o h1]
      have : ¬ ((enc ek ea d).tok = .ArrayEnd) := by cases d <;> simp [enc, Tr.tok]
      simp only [Res.ok_bind, this, if_false, e1, e2]
      have hr : rename φ1 v = rename φ2 v := rename_congr v fun b hb => ((hf2 b (hb1 b hb)).1).symm
      simp [rename.all, hr]
    · intro b hb
      simp only [targets.all, List.mem_append] at hb
      rcases hb with hb | hb
      · exact (hf2 b (hb1 b hb)).2
      · exact hb2 b hb
theorem importsMembers : ∀ {ms : List (Bytes × STy)} {vs : List SVal} {done done' : List Nat} {ds : List (Bytes × Doc)},
    SDocMembers S mk H ms vs done ds done' →
    ImportsMembers S mk cell okKey okAtom H D o sem cfg ek ea ms vs done ds done'
  | _, _, _, _, _, .nil => by
    intro φ st R ht htg hk Q s bef pre found hl hnd ⟨s1, h1, h2⟩
    refine ⟨s1, st, φ, ?_, h2, R, fun a ha => ⟨rfl, ha⟩, fun b hb => by simp [targets.all] at hb⟩
    rw [sdeserMembers, gets_next o h1]
    simp [rename.all, hx]
  | _, _, _, _, _, .cons (n := n) (t := t) (ms := ms) (v := v) (fs := vs) (d := d) h hs => by
    intro φ st R ht htg hk Q s bef pre found hl hnd ⟨s1, h1, ⟨s2, h2, s3, h3, h4⟩, _⟩
    obtain ⟨s4, st1, φ1, e1, q1, R1, hf1, hb1⟩ := imports h φ st R ht.1 (fun b hb => htg b (by simp [targets.all, hb])) _ s3
      (PI.init s2) (gets_next o h3) h4
    obtain ⟨s5, st2, φ2, e2, q2, R2, hf2, hb2⟩ := importsMembers hs φ1 st1 R1 ht.2 (fun b hb => htg b (by simp [targets.all, hb]))
      (fun m hm => hk m (by simp [hm])) _ s4
      (bef ++ [(n, t)]) (pre ++ [rename φ1 v]) (n :: found) (by simp [hl]) (by simpa using hnd) q1
    refine ⟨s5, st2, φ2, ?_, q2, R2, fun a ha => ⟨(hf2 a (hf1 a ha).2).1.trans (hf1 a ha).1, (hf2 a (hf1 a ha).2).2⟩, ?_⟩
    · rw [sdeserMembers, gets_next o h1]
      rw [F.key _ (hk (n, t) (by simp))] at h2
      have e4 : (PI.init s1).lift (o.getKey (PI.init s1).inner) = .ok (n, PI.init s2) := by
        simp [PI.lift, PI.init, h2]
      have hset : (pre ++ List.map (fun _ => SVal.unset) ((n, t) :: ms)).set bef.length (rename φ1 v) =
          pre ++ [rename φ1 v] ++ List.map (fun _ => SVal.unset) ms := by
        rw [hl]; simp
      simp only [Res.ok_bind, reduceCtorEq, if_false, e4, smemberAt_append ms bef 0 hnd, Nat.zero_add, e1, hset]
      have hr : rename φ1 v = rename φ2 v := rename_congr v fun b hb => ((hf2 b (hb1 b hb)).1).symm
      have := e2
      simp only [List.append_assoc, List.singleton_append] at this
      simp only [List.append_assoc, List.singleton_append, this]
      simp [rename.all, hr]
    · intro b hb
      simp only [targets.all, List.mem_append] at hb
      rcases hb with hb | hb
      · exact (hf2 b (hb1 b hb)).2
      · exact hb2 b hb
end
end
end
end Thors
