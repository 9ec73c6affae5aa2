import Verif.Spec.Tree
/-
When a parser state presents a tree, and the refinement theorem: importing from such a state does what
the specification `imp` says.
-/
namespace Thors
open Spec StrIn

variable {σ K X : Type}

/-- Induction on trees. -/
theorem Spec.Tr.induct {P : Tr K X → Prop} (hs : ∀ x, P (.scalar x)) (ha : ∀ ts, (∀ t ∈ ts, P t) → P (.arr ts))
    (ho : ∀ ms, (∀ m ∈ ms, P m.2) → P (.obj ms)) : ∀ t, P t
  | .scalar x => hs x
  | .arr ts => ha ts (elems ts)
  | .obj ms => ho ms (mems ms)
where
  elems : ∀ ts : List (Tr K X), ∀ t ∈ ts, P t
  | [], _, h => absurd h List.not_mem_nil
  | t :: ts, u, h => by
    rcases List.mem_cons.mp h with h | h
    · rw [h]; exact Spec.Tr.induct hs ha ho t
    · exact elems ts u h
  mems : ∀ ms : List (K × Tr K X), ∀ m ∈ ms, P m.2
  | [], _, h => absurd h List.not_mem_nil
  | (k, t) :: ms, u, h => by
    rcases List.mem_cons.mp h with h | h
    · rw [h]; exact Spec.Tr.induct hs ha ho t
    · exact mems ms u h

/-- First token of a value. -/
def Spec.Tr.tok : Tr K X → Tok
  | .scalar _ => .Value
  | .arr _ => .ArrayStart
  | .obj _ => .MapStart

/-- A read operation has the outcome the specification asks for, and on success leaves a state in `Q`. -/
def Reads {α : Type} (Q : σ → Prop) (r : Res (α × σ)) : Res α → Prop
  | .ok a => ∃ s, r = .ok (a, s) ∧ Q s
  | .throw e => r = .throw e
  | .ub => r = .ub

/-- A skip operation succeeds and leaves a state in `Q`. -/
def Skips (Q : σ → Prop) (r : Res σ) : Prop := ∃ s, r = .ok s ∧ Q s

section
variable (o : POps σ) (sem : ScalarSem K X)

/-- `s` is the state just after the first token of the tree was handed out; whatever the client then reads
or skips, the reader behaves as the tree says, and ends in a state in `Q`. -/
def After : Tr K X → (σ → Prop) → σ → Prop
  | .scalar x, Q, s =>
    o.isNull s = sem.isNull x ∧ (∀ k, Reads Q (o.getInt k s) (sem.readInt k x)) ∧
    Reads Q (o.getBool s) (sem.readBool x) ∧ Reads Q (o.getStr s) (sem.readStr x) ∧
    (sem.isNull x = true ∨ sem.skips x = true → Skips Q (o.ignoreData s)) ∧
    (∀ b, sem.raw x = some b → Reads Q (o.getRaw s) (.ok b)) ∧ ∀ f, Reads Q (o.getFlt f s) (sem.readFlt f x)
  | .arr ts, Q, s => o.isNull s = false ∧ elems ts Q s
  | .obj ms, Q, s => o.isNull s = false ∧ members ms Q s
where
  elems : List (Tr K X) → (σ → Prop) → σ → Prop
  | [], Q, s => ∃ s1, o.next s = .ok (.ArrayEnd, s1) ∧ Q s1
  | t :: ts, Q, s => ∃ s1, o.next s = .ok (t.tok, s1) ∧ After t (elems ts Q) s1
  members : List (K × Tr K X) → (σ → Prop) → σ → Prop
  | [], Q, s => ∃ s1, o.next s = .ok (.MapEnd, s1) ∧ Q s1
  | (k, t) :: ms, Q, s => ∃ s1, o.next s = .ok (.Key, s1) ∧
    (∃ s2, o.getKey s1 = .ok (sem.key k, s2) ∧ ∃ s3, o.next s2 = .ok (t.tok, s3) ∧ After t (members ms Q) s3) ∧
    (sem.keySkips k = true → ∃ s2, o.ignoreData s1 = .ok s2 ∧ ∃ s3, o.next s2 = .ok (t.tok, s3) ∧ After t (members ms Q) s3)

/-- `s` presents the tree: the next tokens are those of the tree, and then a state in `Q`. -/
def Presents (t : Tr K X) (Q : σ → Prop) (s : σ) : Prop :=
  ∃ s1, o.next s = .ok (t.tok, s1) ∧ After o sem t Q s1

theorem reads_mono {α : Type} {Q Q' : σ → Prop} (hq : ∀ s, Q s → Q' s) {r : Res (α × σ)} {e : Res α} (h : Reads Q r e) : Reads Q' r e := by
  cases e with
  | ok a => obtain ⟨s, h1, h2⟩ := h; exact ⟨s, h1, hq _ h2⟩
  | throw e => exact h
  | ub => exact h

/-- The final condition can be weakened. -/
theorem after_mono : ∀ (t : Tr K X) {Q Q' : σ → Prop} (_ : ∀ s, Q s → Q' s) {s : σ}, After o sem t Q s → After o sem t Q' s
  | .scalar x, Q, Q', hq, s, h => by
    obtain ⟨h1, h2, h3, h4, h5, h6, h7⟩ := h
    refine ⟨h1, fun k => reads_mono hq (h2 k), reads_mono hq h3, reads_mono hq h4, fun hh => ?_, fun b hb => reads_mono hq (h6 b hb),
      fun f => reads_mono hq (h7 f)⟩
    obtain ⟨s2, h6, h7⟩ := h5 hh
    exact ⟨s2, h6, hq _ h7⟩
  | .arr ts, Q, Q', hq, s, h => ⟨h.1, emono ts hq h.2⟩
  | .obj ms, Q, Q', hq, s, h => ⟨h.1, mmono ms hq h.2⟩
where
  emono : ∀ (ts : List (Tr K X)) {Q Q' : σ → Prop} (_ : ∀ s, Q s → Q' s) {s : σ}, After.elems o sem ts Q s → After.elems o sem ts Q' s
  | [], Q, Q', hq, s, ⟨s1, h1, h2⟩ => ⟨s1, h1, hq _ h2⟩
  | t :: ts, Q, Q', hq, s, ⟨s1, h1, h2⟩ => ⟨s1, h1, after_mono t (fun s h => emono ts hq h) h2⟩
  mmono : ∀ (ms : List (K × Tr K X)) {Q Q' : σ → Prop} (_ : ∀ s, Q s → Q' s) {s : σ}, After.members o sem ms Q s → After.members o sem ms Q' s
  | [], Q, Q', hq, s, ⟨s1, h1, h2⟩ => ⟨s1, h1, hq _ h2⟩
  | (k, t) :: ms, Q, Q', hq, s, ⟨s1, h1, ⟨s2, h2, s3, h3, h4⟩, h5⟩ =>
    ⟨s1, h1, ⟨s2, h2, s3, h3, after_mono t (fun s h => mmono ms hq h) h4⟩, fun hk => by
      obtain ⟨s2, h2, s3, h3, h4⟩ := h5 hk
      exact ⟨s2, h2, s3, h3, after_mono t (fun s h => mmono ms hq h) h4⟩⟩

/-! ### Skipping -/

/-- Continue skipping after the first token. -/
def skipAfter (t : Tr K X) (s : σ) : Res σ :=
  match t.tok with
  | .Value => o.ignoreData s
  | .MapStart => ignoreTheMap o s
  | _ => ignoreTheArray o s

theorem skip_value {t : Tr K X} {s s1 : σ} (h : o.next s = .ok (t.tok, s1)) : ignoreTheValue o s = skipAfter o t s1 := by
  rw [ignoreTheValue, h]
  cases t <;> rfl

theorem skip_elem {t : Tr K X} {s s1 : σ} (h : o.next s = .ok (t.tok, s1)) :
    ignoreTheArray o s = (do let s ← skipAfter o t s1; ignoreTheArray o s) := by
  conv => lhs; rw [ignoreTheArray]
  rw [h]
  cases t <;> rfl

/-- Skipping a skippable tree ends where the tree ends. -/
theorem skip_after : ∀ (t : Tr K X) {Q : σ → Prop} {s : σ}, t.skippable sem = true → After o sem t Q s → Skips Q (skipAfter o t s) := by
  intro t
  induction t using Spec.Tr.induct with
  | hs x => intro Q s hk h; exact h.2.2.2.2.1 (.inr hk)
  | ha ts ih =>
    intro Q s hk h
    replace h := h.2
    simp only [Tr.skippable] at hk
    show Skips Q (ignoreTheArray o s)
    induction ts generalizing s with
    | nil =>
      obtain ⟨s1, h1, h2⟩ := h
      rw [ignoreTheArray, h1]
      exact ⟨s1, rfl, h2⟩
    | cons t ts ih2 =>
      obtain ⟨s1, h1, h2⟩ := h
      simp only [Tr.skippable.all, Bool.and_eq_true] at hk
      rw [skip_elem o h1]
      obtain ⟨s2, h3, h4⟩ := ih t (by simp) hk.1 h2
      rw [h3]
      exact ih2 (fun t ht => ih t (by simp [ht])) hk.2 h4
  | ho ms ih =>
    intro Q s hk h
    replace h := h.2
    simp only [Tr.skippable] at hk
    show Skips Q (ignoreTheMap o s)
    induction ms generalizing s with
    | nil =>
      obtain ⟨s1, h1, h2⟩ := h
      rw [ignoreTheMap, h1]
      exact ⟨s1, rfl, h2⟩
    | cons m ms ih2 =>
      obtain ⟨k, t⟩ := m
      obtain ⟨s1, h1, -, h2⟩ := h
      simp only [Tr.skippable.allM, Bool.and_eq_true] at hk
      obtain ⟨s2, h3, s3, h4, h5⟩ := h2 hk.1.1
      rw [ignoreTheMap, h1]
      simp only [Res.ok_bind]
      rw [h3]
      simp only [Res.ok_bind]
      rw [skip_value o h4]
      obtain ⟨s4, h6, h7⟩ := ih (k, t) (by simp) hk.1.2 h5
      rw [h6]
      exact ih2 (fun t ht => ih t (by simp [ht])) hk.2 h7

theorem skip_presents {t : Tr K X} {Q : σ → Prop} {s : σ} (hk : t.skippable sem = true) (h : Presents o sem t Q s) :
    Skips Q (ignoreTheValue o s) := by
  obtain ⟨s1, h1, h2⟩ := h
  rw [skip_value o h1]
  exact skip_after o sem t hk h2

/-! ### Importing -/

/-- The outcome of an import matches the specification; after success the state is in `Q` and nothing is
pushed back. Where the specification says `ub`, the import is `ub` too if everything can be skipped. -/
def Match {α : Type} (c : Prop) (Q : σ → Prop) (r : Res (α × PI σ)) : Res α → Prop
  | .ok a => ∃ s, r = .ok (a, PI.init s) ∧ Q s
  | .throw e => r = .throw e
  | .ub => c → r = .ub

/-- `getToken` hands out `t` and leaves the concrete parser in `s` with nothing pushed back. -/
def Gets (p : PI σ) (t : Tok) (s : σ) : Prop := p.getToken o = .ok (t, PI.init s)

theorem gets_next {s s1 : σ} {t : Tok} (h : o.next s = .ok (t, s1)) : Gets o (PI.init s) t s1 := by
  simp [Gets, PI.getToken, PI.init, h]

theorem gets_pushed {s : σ} {t : Tok} (h : t ≠ .Error) : Gets o ((PI.init s).pushBackToken t) t s := by
  simp [Gets, PI.getToken, PI.init, PI.pushBackToken, h]

theorem match_bind {α β : Type} {c c' : Prop} {Q Q' : σ → Prop} {r : Res (α × PI σ)} {e : Res α} {f : α × PI σ → Res (β × PI σ)}
    {g : α → Res β} (h : Match c Q r e) (hc : c' → c) (hf : ∀ a s, Q s → Match c' Q' (f (a, PI.init s)) (g a)) :
    Match c' Q' (r >>= f) (e >>= g) := by
  cases e with
  | ok a => obtain ⟨s, h1, h2⟩ := h; rw [h1]; exact hf a s h2
  | throw e => cases h; rfl
  | ub => intro hc'; rw [h (hc hc')]; rfl

theorem match_weaken {α : Type} {c c' : Prop} {Q : σ → Prop} {r : Res (α × PI σ)} {e : Res α} (h : Match c Q r e) (hc : c' → c) :
    Match c' Q r e := by
  cases e with
  | ok a => exact h
  | throw e => exact h
  | ub => exact fun h' => h (hc h')

theorem match_reads {α β : Type} {c : Prop} {Q Q' : σ → Prop} {s : σ} {r : Res (α × σ)} {e : Res α} {f : α × PI σ → Res (β × PI σ)}
    {g : α → Res β} (h : Reads Q r e) (hf : ∀ a s, Q s → Match c Q' (f (a, PI.init s)) (g a)) :
    Match c Q' ((PI.init s).lift r >>= f) (e >>= g) := by
  cases e with
  | ok a => obtain ⟨s, h1, h2⟩ := h; rw [h1]; exact hf a s h2
  | throw e => cases h; rfl
  | ub => cases h; intro; rfl

theorem match_ok {α : Type} {c : Prop} {Q : σ → Prop} {a : α} {s : σ} (h : Q s) : Match c Q (.ok (a, PI.init s)) (.ok a) := ⟨s, rfl, h⟩

theorem match_throw {α : Type} {c : Prop} {Q : σ → Prop} {e : Exc} : Match (α := α) c Q (.throw e) (.throw e) := rfl

theorem match_ub {α : Type} {c : Prop} {Q : σ → Prop} : Match (α := α) c Q .ub .ub := fun _ => rfl

variable (env : Env) (cfg : Cfg)

theorem tok_ne_error (t : Tr K X) : t.tok ≠ .Error := by cases t <;> simp [Tr.tok]

/-- Importing a scalar. -/
theorem deser_scalar (x : X) {Q : σ → Prop} {s : σ} (ha : After o sem (.scalar x) Q s) (c : Prop) :
    ∀ (ty : Ty) (old : Val) (p : PI σ), Gets o p .Value s →
      Match c Q (deser o env cfg ty old p) (impScalar sem env x ty old) := by
  obtain ⟨h1, h2, h3, h4, h5, -, h7⟩ := ha
  intro ty
  induction ty with
  | int k =>
    intro old p hg
    rw [deser, hg, impScalar]
    exact match_reads (h2 k) fun a s hs => match_ok hs
  | flt f =>
    intro old p hg
    rw [deser, hg, impScalar]
    exact match_reads (h7 f) fun a s hs => match_ok hs
  | bool =>
    intro old p hg
    rw [deser, hg, impScalar]
    exact match_reads h3 fun a s hs => match_ok hs
  | str =>
    intro old p hg
    rw [deser, hg, impScalar]
    exact match_reads h4 fun a s hs => match_ok hs
  | opt t ih =>
    intro old p hg
    rw [deser, impScalar]
    exact match_bind (ih _ p hg) id fun a s hs => match_ok hs
  | uptr t ih =>
    intro old p hg
    rw [deser, hg, impScalar]
    simp only [Res.ok_bind]
    show Match c Q (if o.isNull s = true then _ else _) _
    rw [h1]
    cases hn : sem.isNull x with
    | true =>
      obtain ⟨s2, h6, h7⟩ := h5 (.inl hn)
      simp only [if_true]
      show Match c Q (o.ignoreData s >>= _) _
      rw [h6]
      exact match_ok h7
    | false =>
      simp only [Bool.false_eq_true, if_false]
      exact match_bind (ih _ _ (gets_pushed o (by simp))) id fun a s hs => match_ok hs
  | pptr b =>
    intro old p hg
    rw [deser, hg, impScalar]
    simp only [Res.ok_bind]
    show Match c Q (if o.isNull s = true then _ else _) _
    rw [h1]
    cases hn : sem.isNull x with
    | true =>
      obtain ⟨s2, h6, h7⟩ := h5 (.inl hn)
      simp only [if_true]
      show Match c Q (o.ignoreData s >>= _) _
      rw [h6]
      exact match_ok h7
    | false =>
      simp only [Bool.false_eq_true, if_false]
      rw [polyClassName, gets_pushed o (by simp)]
      exact match_throw
  | named i =>
    intro old p hg
    rw [deser, impScalar]
    cases hd : env.defs i with
    | cls d => simp only; rw [deserClass, hg]; exact match_throw
    | tuple ts => simp only; rw [hg]; exact match_throw
    | enum table =>
      simp only
      rw [hg]
      refine match_reads h4 fun a s hs => ?_
      simp only
      cases enumOf table a with
      | none => exact match_throw
      | some v => exact match_ok hs
    | variant alts =>
      simp only
      rw [polyClassName, hg]
      exact match_throw
  | seq k t | arr n t | smap t | mmap t | umap t =>
    intro old p hg
    rw [deser, hg, impScalar]
    · exact match_throw
    all_goals (intros; simp_all)

/-- `b` holds, if the mode skips unknown members at all. -/
def Sk (b : Bool) : Prop := cfg.strict = .Weak → b = true

theorem sk_and (a b : Bool) : Sk cfg (a && b) ↔ Sk cfg a ∧ Sk cfg b := by
  simp only [Sk, Bool.and_eq_true]
  exact ⟨fun h => ⟨fun w => (h w).1, fun w => (h w).2⟩, fun h w => ⟨h.1 w, h.2 w⟩⟩

/-- The refinement statement for one tree. -/
def Refines (t : Tr K X) : Prop :=
  ∀ (Q : σ → Prop) (s : σ) (ty : Ty) (old : Val) (p : PI σ), Gets o p t.tok s → After o sem t Q s →
    Match (Sk cfg (t.skippable sem)) Q (deser o env cfg ty old p) (imp sem env cfg t ty old)

theorem elems_eq (ts : List (Tr K X)) : imp.elems sem env cfg ts = ts.map (imp sem env cfg) := by
  induction ts with
  | nil => rfl
  | cons t ts ih => simp [imp.elems, ih]

theorem members_eq (ms : List (K × Tr K X)) : imp.members sem env cfg ms = ms.map (fun m => ⟨m.1, m.2, imp sem env cfg m.2⟩) := by
  induction ms with
  | nil => rfl
  | cons t ts ih => obtain ⟨k, t⟩ := t; simp [imp.members, ih]

theorem deser_vec (ts : List (Tr K X)) (ih : ∀ t ∈ ts, Refines o sem env cfg t) (k : SeqKind) (ty : Ty) :
    ∀ {Q : σ → Prop} {s : σ} (vs : List Val), After.elems o sem ts Q s →
      Match (Sk cfg (Tr.skippable.all sem ts)) Q (deserVec o env cfg k ty vs (PI.init s)) (impVec env k ty (imp.elems sem env cfg ts) vs) := by
  induction ts with
  | nil =>
    intro Q s vs ⟨s1, h1, h2⟩
    rw [deserVec, gets_next o h1]
    exact match_ok h2
  | cons t ts ih2 =>
    intro Q s vs ⟨s1, h1, h2⟩
    rw [deserVec, gets_next o h1, imp.elems, impVec]
    simp only [Res.ok_bind]
    rw [if_neg (by cases t <;> simp [Tr.tok])]
    simp only [Tr.skippable.all, sk_and]
    refine match_bind (ih t (by simp) _ _ _ _ _ (gets_pushed o (tok_ne_error t)) h2) (fun h => h.1) fun v s hs => ?_
    have := ih2 (fun t ht => ih t (by simp [ht])) (k.insert env vs v) hs
    exact match_weaken this (fun h => h.2)

theorem deser_fix (ts : List (Tr K X)) (ih : ∀ t ∈ ts, Refines o sem env cfg t) (tyAt : Nat → Option Ty) :
    ∀ {Q : σ → Prop} {s : σ} (i : Nat) (vs : List Val), After.elems o sem ts Q s →
      Match (Sk cfg (Tr.skippable.all sem ts)) Q (deserFix o env cfg tyAt i vs (PI.init s)) (impFix tyAt (imp.elems sem env cfg ts) i vs) := by
  induction ts with
  | nil =>
    intro Q s i vs ⟨s1, h1, h2⟩
    rw [deserFix, gets_next o h1]
    exact match_ok h2
  | cons t ts ih2 =>
    intro Q s i vs ⟨s1, h1, h2⟩
    rw [deserFix, gets_next o h1, imp.elems, impFix]
    simp only [Res.ok_bind]
    rw [if_neg (by cases t <;> simp [Tr.tok])]
    simp only [Tr.skippable.all, sk_and]
    cases tyAt i with
    | none => exact match_ub
    | some ty =>
      cases vs[i]? with
      | none => exact match_ub
      | some w =>
        refine match_bind (ih t (by simp) _ _ _ _ _ (gets_pushed o (tok_ne_error t)) h2) (fun h => h.1) fun v s hs => ?_
        have := ih2 (fun t ht => ih t (by simp [ht])) (i + 1) (vs.set i v) hs
        exact match_weaken this (fun h => h.2)

/-- Importing an array. -/
theorem deser_arr (ts : List (Tr K X)) (ih : ∀ t ∈ ts, Refines o sem env cfg t) : Refines o sem env cfg (.arr ts) := by
  intro Q s ty old p hg ha
  rw [imp]
  simp only [Tr.skippable]
  simp only [Tr.tok] at hg
  obtain ⟨hn, ha⟩ := ha
  induction ty generalizing old p with
  | seq k t =>
    rw [deser, hg]
    cases old <;> try exact match_ub
    exact deser_vec o sem env cfg ts ih k t _ ha
  | arr n t =>
    rw [deser, hg]
    cases old <;> try exact match_ub
    exact deser_fix o sem env cfg ts ih _ 0 _ ha
  | opt t iht =>
    rw [deser, impArr]
    exact match_bind (iht _ p hg) id fun a s hs => match_ok hs
  | uptr t iht =>
    rw [deser, hg, impArr]
    simp only [Res.ok_bind]
    show Match _ Q (if o.isNull s = true then _ else _) _
    rw [hn]
    simp only [Bool.false_eq_true, if_false]
    exact match_bind (iht _ _ (gets_pushed o (by simp))) id fun a s hs => match_ok hs
  | pptr b =>
    rw [deser, hg, impArr]
    · simp only [Res.ok_bind]
      show Match _ Q (if o.isNull s = true then _ else _) _
      rw [hn]
      simp only [Bool.false_eq_true, if_false]
      rw [polyClassName, gets_pushed o (by simp)]
      exact match_throw
    all_goals (intros; simp_all)
  | named i =>
    rw [deser, impArr]
    cases hd : env.defs i with
    | cls d => simp only; rw [deserClass, hg]; exact match_throw
    | tuple tys =>
      simp only
      rw [hg]
      cases old <;> try exact match_ub
      exact deser_fix o sem env cfg ts ih _ 0 _ ha
    | enum table => simp only; rw [hg]; exact match_throw
    | variant alts => simp only; rw [polyClassName, hg]; exact match_throw
  | int k | flt f | bool | str | smap t | mmap t | umap t =>
    rw [deser, hg, impArr]
    · exact match_throw
    all_goals (intros; simp_all)

theorem deser_dict (kind : DictKind) (ty : Ty) (ms : List (K × Tr K X)) (ih : ∀ m ∈ ms, Refines o sem env cfg m.2) :
    ∀ {Q : σ → Prop} {s : σ} (kvs : List (Bytes × Val)), After.members o sem ms Q s →
      Match (Sk cfg (Tr.skippable.allM sem ms)) Q (deserDict o env cfg kind ty kvs (PI.init s))
        (impDict sem env kind ty (imp.members sem env cfg ms) kvs) := by
  induction ms with
  | nil =>
    intro Q s kvs ⟨s1, h1, h2⟩
    rw [deserDict, gets_next o h1]
    exact match_ok h2
  | cons m ms ih2 =>
    obtain ⟨k, t⟩ := m
    intro Q s kvs ⟨s1, h1, ⟨s2, h2, s3, h3, h4⟩, _⟩
    rw [deserDict, gets_next o h1, imp.members]
    simp only [Res.ok_bind]
    rw [if_neg (by simp)]
    show Match _ Q (PI.lift _ (o.getKey s1) >>= _) _
    rw [h2]
    simp only [Tr.skippable.allM, sk_and]
    have hg := gets_next o h3
    have hm := fun w => ih (k, t) (by simp) _ _ ty w _ hg h4
    have h2' := fun kvs {s} hs => match_weaken (ih2 (fun t ht => ih t (by simp [ht])) (Q := Q) (s := s) kvs hs)
      (c' := (Sk cfg (sem.keySkips k) ∧ Sk cfg (Tr.skippable sem t)) ∧ Sk cfg (Tr.skippable.allM sem ms)) (fun h => h.2)
    cases kind with
    | sorted => rw [impDict]; exact match_bind (hm _) (fun h => h.1.2) fun v s hs => h2' _ hs
    | multi => rw [impDict]; exact match_bind (hm _) (fun h => h.1.2) fun v s hs => h2' _ hs
    | unordered => rw [impDict]; exact match_bind (hm _) (fun h => h.1.2) fun v s hs => h2' _ hs

theorem deser_members (d : StructDef) (ms : List (K × Tr K X)) (ih : ∀ m ∈ ms, Refines o sem env cfg m.2) :
    ∀ {Q : σ → Prop} {s : σ} (found : List Bytes) (old : Val), After.members o sem ms Q s →
      Match (Sk cfg (Tr.skippable.allM sem ms)) Q (deserMembers o env cfg d found old (PI.init s))
        (impMembers sem cfg d (imp.members sem env cfg ms) found old) := by
  induction ms with
  | nil =>
    intro Q s found old ⟨s1, h1, h2⟩
    rw [deserMembers, gets_next o h1, imp.members, impMembers]
    simp only [Res.ok_bind, if_true]
    split
    · exact match_throw
    · exact match_ok h2
  | cons m ms ih2 =>
    obtain ⟨k, t⟩ := m
    intro Q s found old ⟨s1, h1, ⟨s2, h2, s3, h3, h4⟩, _⟩
    rw [deserMembers, gets_next o h1, imp.members, impMembers]
    simp only [Res.ok_bind]
    rw [if_neg (by simp)]
    show Match _ Q (PI.lift _ (o.getKey s1) >>= _) _
    rw [h2]
    simp only [Tr.skippable.allM, sk_and]
    have hg := gets_next o h3
    have h2' := fun found old {s} hs => match_weaken (ih2 (fun t ht => ih t (by simp [ht])) (Q := Q) (s := s) found old hs)
      (c' := (Sk cfg (sem.keySkips k) ∧ Sk cfg (Tr.skippable sem t)) ∧ Sk cfg (Tr.skippable.allM sem ms)) (fun h => h.2)
    simp only [PI.lift, Res.ok_bind, Res.pure_eq]
    cases d.find (sem.key k) with
    | none =>
      simp only [PI.ignoreValue]
      by_cases hw : cfg.strict = .Weak
      · simp only [hw, ne_eq, not_true, if_false]
        by_cases hk : t.skippable sem = true
        · obtain ⟨s4, h5, h6⟩ := skip_presents o sem hk ⟨s3, h3, h4⟩
          simp only [hk]
          show Match _ Q ((ignoreTheValue o s2 >>= _) >>= _) _
          rw [h5]
          have := h2' found old h6
          simp only [hk] at this
          exact this
        · rw [Bool.not_eq_true] at hk
          rw [if_pos hk]
          intro hc
          have := hc.1.2 hw
          rw [hk] at this
          cases this
      · simp only [hw, ne_eq, not_false_eq_true, if_true]
        exact match_throw
    | some slot =>
      simp only
      cases old.field slot.path slot.index with
      | none => exact match_ub
      | some w => exact match_bind (ih (k, t) (by simp) _ _ _ _ _ hg h4) (fun h => h.1.2) fun v s hs => h2' _ _ hs

/-- Importing an object of class type from a state whose next token is the start of the object. -/
theorem deser_class (d : StructDef) (ms : List (K × Tr K X)) (ih : ∀ m ∈ ms, Refines o sem env cfg m.2)
    {Q : σ → Prop} {s : σ} {p : PI σ} (old : Val) (hg : Gets o p .MapStart s) (ha : After.members o sem ms Q s) :
      Match (Sk cfg (Tr.skippable.allM sem ms)) Q (deserClass o env cfg d old p) (impMembers sem cfg d (imp.members sem env cfg ms) [] old) := by
  rw [deserClass, hg]
  exact deser_members o sem env cfg d ms ih _ _ ha

/-- Reading the class name leaves the parser in front of the remaining members. -/
theorem class_name (marker : Bytes) (ms : List (K × Tr K X)) {Q : σ → Prop} {s : σ} {p : PI σ}
    (hg : Gets o p .MapStart s) (ha : After.members o sem ms Q s) :
    (∃ k x ms' name s', ms = (k, .scalar x) :: ms' ∧ polyClassName o marker p = .ok (name, (PI.init s').pushBackToken .MapStart) ∧
      className sem marker (imp.members sem env cfg ms) = .ok (name, imp.members sem env cfg ms') ∧
      After.members o sem ms' Q s') ∨
    (∃ e, polyClassName o marker p = .throw e ∧ className sem marker (imp.members sem env cfg ms) = .throw e) ∨
    (polyClassName o marker p = .ub ∧ className sem marker (imp.members sem env cfg ms) = .ub) := by
  rw [polyClassName, hg]
  simp only [Res.ok_bind]
  cases ms with
  | nil =>
    obtain ⟨s1, h1, h2⟩ := ha
    right; left
    rw [gets_next o h1]
    exact ⟨_, rfl, rfl⟩
  | cons m ms =>
    obtain ⟨k, t⟩ := m
    obtain ⟨s1, h1, ⟨s2, h2, s3, h3, h4⟩, -⟩ := ha
    have e1 : PI.getToken o ⟨s, .Error, .Error⟩ = .ok (.Key, ⟨s1, .Error, .Error⟩) := gets_next o h1
    have e3 : PI.getToken o ⟨s2, .Error, .Error⟩ = .ok (t.tok, ⟨s3, .Error, .Error⟩) := gets_next o h3
    simp only [PI.init, e1, PI.lift, h2, Res.ok_bind, Res.pure_eq, ne_eq, not_true, if_false, imp.members, className]
    by_cases hk : sem.key k = marker
    · simp only [hk, not_true, if_false, e3, Res.ok_bind]
      cases t with
      | scalar x =>
        obtain ⟨-, -, -, h5, -⟩ := h4
        simp only [Tr.tok, not_true, if_false]
        cases hr : sem.readStr x with
        | ok name =>
          rw [hr] at h5
          obtain ⟨s4, h6, h7⟩ := h5
          left
          rw [h6]
          exact ⟨k, x, ms, name, s4, rfl, rfl, rfl, h7⟩
        | throw e =>
          rw [hr] at h5
          right; left
          rw [h5]
          exact ⟨e, rfl, rfl⟩
        | ub =>
          rw [hr] at h5
          right; right
          rw [h5]
          exact ⟨rfl, rfl⟩
      | arr ts => right; left; exact ⟨.std, rfl, rfl⟩
      | obj ms => right; left; exact ⟨.std, rfl, rfl⟩
    · simp only [hk, not_false_eq_true, if_true]
      right; left
      exact ⟨.std, rfl, rfl⟩

/-- Importing an object. -/
theorem deser_obj (ms : List (K × Tr K X)) (ih : ∀ m ∈ ms, Refines o sem env cfg m.2) : Refines o sem env cfg (.obj ms) := by
  intro Q s ty old p hg ha
  rw [imp]
  simp only [Tr.skippable]
  simp only [Tr.tok] at hg
  obtain ⟨hn, ha⟩ := ha
  induction ty generalizing old p with
  | smap t =>
    rw [deser, hg]
    cases old <;> try exact match_ub
    exact deser_dict o sem env cfg _ t ms ih _ ha
  | mmap t =>
    rw [deser, hg]
    cases old <;> try exact match_ub
    exact deser_dict o sem env cfg _ t ms ih _ ha
  | umap t =>
    rw [deser, hg]
    cases old <;> try exact match_ub
    exact deser_dict o sem env cfg _ t ms ih _ ha
  | opt t iht =>
    rw [deser, impObj]
    exact match_bind (iht _ p hg) id fun a s hs => match_ok hs
  | uptr t iht =>
    rw [deser, hg, impObj]
    simp only [Res.ok_bind]
    show Match _ Q (if o.isNull s = true then _ else _) _
    rw [hn]
    simp only [Bool.false_eq_true, if_false]
    exact match_bind (iht _ _ (gets_pushed o (by simp))) id fun a s hs => match_ok hs
  | pptr b =>
    rw [deser, hg, impObj]
    simp only [Res.ok_bind]
    show Match _ Q (if o.isNull s = true then _ else _) _
    rw [hn]
    simp only [Bool.false_eq_true, if_false]
    rcases class_name o sem env cfg (polyMarker env cfg.marker b) ms (gets_pushed o (t := .MapStart) (by simp)) ha with
      ⟨k, x, ms', name, s', hms, h1, h2, h3⟩ | ⟨e, h1, h2⟩ | ⟨h1, h2⟩
    · rw [h1, h2]
      simp only [Res.ok_bind]
      cases env.registry.lookup name with
      | none => exact match_throw
      | some c =>
        simp only
        split
        · exact match_ub
        · cases env.defs c with
          | cls d =>
            refine match_bind (c := Sk cfg (Tr.skippable.allM sem ms')) (deser_class o sem env cfg d.traits ms' ?_ _ (gets_pushed o (by simp)) h3) ?_ fun v s hs => match_ok hs
            · intro m hm; exact ih m (by rw [hms]; simp [hm])
            · rw [hms]; simp only [Tr.skippable.allM, sk_and]; exact fun h => h.2
          | tuple _ | enum _ | variant _ => exact match_ub
    · rw [h1, h2]; exact match_throw
    · rw [h1, h2]; exact match_ub
  | named i =>
    rw [deser, impObj]
    cases hd : env.defs i with
    | cls d => exact deser_class o sem env cfg d.traits ms ih old hg ha
    | tuple tys => simp only; rw [hg]; exact match_throw
    | enum table => simp only; rw [hg]; exact match_throw
    | variant alts =>
      simp only
      rcases class_name o sem env cfg (polyMarker env cfg.marker (alts.headD 0)) ms hg ha with
        ⟨k, x, ms', name, s', hms, h1, h2, h3⟩ | ⟨e, h1, h2⟩ | ⟨h1, h2⟩
      · rw [h1, h2]
        simp only [Res.ok_bind]
        cases pickAlt env cfg (polyMarker env cfg.marker (alts.headD 0)) name alts with
        | none =>
          simp only [PI.ignoreValue]
          split
          · exact match_throw
          · show Match _ Q ((ignoreTheValue o s' >>= _) >>= _) _
            cases ms' with
            | nil =>
              obtain ⟨s1, h4, -⟩ := h3
              rw [ignoreTheValue, h4]
              exact match_throw
            | cons m ms' =>
              obtain ⟨k, t⟩ := m
              obtain ⟨s1, h4, -⟩ := h3
              rw [ignoreTheValue, h4]
              exact match_throw
        | some c =>
          simp only
          cases env.defs c with
          | cls d =>
            refine match_bind (c := Sk cfg (Tr.skippable.allM sem ms')) (deser_class o sem env cfg d.traits ms' ?_ _ (gets_pushed o (by simp)) h3) ?_ fun v s hs => match_ok hs
            · intro m hm; exact ih m (by rw [hms]; simp [hm])
            · rw [hms]; simp only [Tr.skippable.allM, sk_and]; exact fun h => h.2
          | tuple _ | enum _ | variant _ => exact match_ub
      · rw [h1, h2]; exact match_throw
      · rw [h1, h2]; exact match_ub
  | int k | flt f | bool | str | seq _ t | arr n t =>
    rw [deser, hg, impObj]
    · exact match_throw
    all_goals (intros; simp_all)

/-- Refinement: importing a document into an object of any type does what the specification says. -/
theorem deser_refines (t : Tr K X) : Refines o sem env cfg t := by
  induction t using Spec.Tr.induct with
  | hs x => intro Q s ty old p hg ha; exact deser_scalar o sem env cfg x ha _ ty old p hg
  | ha ts ih => exact deser_arr o sem env cfg ts ih
  | ho ms ih => exact deser_obj o sem env cfg ms ih

theorem deser_presents {t : Tr K X} {Q : σ → Prop} {s : σ} (h : Presents o sem t Q s) (ty : Ty) (old : Val) :
    Match (Sk cfg (t.skippable sem)) Q (deser o env cfg ty old (PI.init s)) (imp sem env cfg t ty old) := by
  obtain ⟨s1, h1, h2⟩ := h
  exact deser_refines o sem env cfg t Q s1 ty old _ (gets_next o h1) h2

/-- The same for a whole document. -/
theorem import_refines {t : Tr K X} {Q : σ → Prop} {s s1 : σ} (h0 : o.next s = .ok (.DocStart, s1))
    (h : Presents o sem t (fun s => ∃ s', o.next s = .ok (.DocEnd, s') ∧ Q s') s1) (ty : Ty) (old : Val) :
    Match (Sk cfg (t.skippable sem)) Q (importValue o env cfg ty old (PI.init s)) (imp sem env cfg t ty old) := by
  rw [importValue, gets_next o h0]
  have := match_bind (c' := Sk cfg (t.skippable sem)) (Q' := Q) (g := fun v => .ok v) (deser_presents o sem env cfg h ty old) id
    (f := fun x => do
      let (k, p) ← x.2.getToken o
      if k ≠ .DocEnd then throwStd else return (x.1, p)) (by
      intro a s ⟨s', h1, h2⟩
      simp only
      rw [gets_next o h1]
      exact match_ok h2)
  have he : (imp sem env cfg t ty old >>= fun v => Res.ok v) = imp sem env cfg t ty old := by
    cases imp sem env cfg t ty old <;> rfl
  rw [he] at this
  exact this

end
end Thors
