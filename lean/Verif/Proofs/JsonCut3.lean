import Verif.Proofs.JsonCut2
import Verif.Model.Importer
/-
Cut documents that consist of a scalar, and the outcome of the whole import.
-/
namespace Thors
open Spec StrIn

/-- What a client may do with the value just announced, as a meaning of scalars. -/
def seenSem {σ : Type} (o : POps σ) (s : σ) : ScalarSem Unit Unit where
  isNull _ := o.isNull s
  readInt k _ := do return (← o.getInt k s).1
  readFlt f _ := do return (← o.getFlt f s).1
  readBool _ := do return (← o.getBool s).1
  readStr _ := do return (← o.getStr s).1
  raw _ := none
  skips _ := false
  key _ := []
  keySkips _ := false

theorem reads_seen {σ α : Type} {Q : σ → Prop} {r : Res (α × σ)} (h : Yields (fun x => Q x.2) r) : Reads Q r (do return (← r).1) := by
  cases r with
  | ok x => exact ⟨x.2, rfl, h x rfl⟩
  | throw e => rfl
  | ub => rfl

theorem impScalar_noub {K X : Type} {sem : ScalarSem K X} {env : Env} {x : X} (hi : ∀ k, sem.readInt k x ≠ .ub) (hf : ∀ f, sem.readFlt f x ≠ .ub)
    (hb : sem.readBool x ≠ .ub) (hs : sem.readStr x ≠ .ub) : ∀ (ty : Ty) (old : Val), impScalar sem env x ty old ≠ .ub := by
  have hbind : ∀ {α β : Type} {r : Res α} {f : α → Res β}, r ≠ .ub → (∀ a, f a ≠ .ub) → (r >>= f) ≠ .ub := by
    intro α β r f h1 h2
    cases r with
    | ok a => exact h2 a
    | throw e => intro h; cases h
    | ub => exact absurd rfl h1
  intro ty
  induction ty with
  | int k => intro old; exact hbind (hi k) (fun a h => by cases h)
  | flt f => intro old; exact hbind (hf f) (fun a h => by cases h)
  | bool => intro old; exact hbind hb (fun a h => by cases h)
  | str => intro old; exact hbind hs (fun a h => by cases h)
  | seq k t => intro old h; cases h
  | arr n t => intro old h; cases h
  | smap t => intro old h; cases h
  | mmap t => intro old h; cases h
  | umap t => intro old h; cases h
  | opt t ih => intro old; exact hbind (ih _) (fun a h => by cases h)
  | uptr t ih =>
    intro old
    unfold impScalar
    split
    · intro h; cases h
    · exact hbind (ih _) (fun a h => by cases h)
  | pptr b =>
    intro old
    unfold impScalar
    split <;> (intro h; cases h)
  | named i =>
    intro old
    unfold impScalar
    split
    · refine hbind hs fun a => ?_
      split <;> (intro h; cases h)
    · intro h; cases h

/-- If the next token is a value, and every way to read it fails or ends in `Q`, the import fails or ends in `Q`. -/
theorem value_watch {σ : Type} {o : POps σ} {Q : σ → Prop} {s s1 : σ} (hn : o.next s = .ok (.Value, s1))
    (hi : ∀ k, Yields (fun x => Q x.2) (o.getInt k s1) ∧ o.getInt k s1 ≠ .ub) (hf : ∀ f, Yields (fun x => Q x.2) (o.getFlt f s1) ∧ o.getFlt f s1 ≠ .ub)
    (hb : Yields (fun x => Q x.2) (o.getBool s1) ∧ o.getBool s1 ≠ .ub) (hs : Yields (fun x => Q x.2) (o.getStr s1) ∧ o.getStr s1 ≠ .ub)
    (h0 : o.isNull s1 = true → Skips Q (o.ignoreData s1)) (env : Env) (cfg : Cfg) (ty : Ty) (old : Val) :
    Yields (fun x => ∃ s, x.2 = PI.init s ∧ Q s) (deser o env cfg ty old (PI.init s)) := by
  have hub : ∀ {α : Type} {r : Res (α × σ)}, r ≠ .ub → (do return (← r).1 : Res α) ≠ .ub := by
    intro α r h
    cases r with
    | ok a => intro h; cases h
    | throw e => intro h; cases h
    | ub => exact absurd rfl h
  have hp : Presents o (seenSem o s1) (.scalar ()) Q s := by
    refine ⟨s1, hn, rfl, fun k => reads_seen (hi k).1, reads_seen hb.1, reads_seen hs.1, fun h => h0 (by simpa [seenSem] using h), fun b h => by simp [seenSem] at h,
      fun f => reads_seen (hf f).1⟩
  have := deser_presents o (seenSem o s1) env cfg hp ty old
  rw [show imp (seenSem o s1) env cfg (.scalar ()) ty old = impScalar (seenSem o s1) env () ty old from rfl] at this
  have hn' := impScalar_noub (sem := seenSem o s1) (env := env) (x := ()) (fun k => hub (hi k).2) (fun f => hub (hf f).2) (hub hb.2) (hub hs.2) ty old
  cases hr : impScalar (seenSem o s1) env () ty old with
  | ok v =>
    rw [hr] at this
    obtain ⟨s', e, hq⟩ := this
    rw [e]
    exact .ok ⟨s', rfl, hq⟩
  | throw e =>
    rw [hr] at this
    rw [show deser o env cfg ty old (PI.init s) = _ from this]
    exact .throw
  | ub => exact absurd hr hn'

/-- The parser behind the document start. -/
def begun (t : Bytes) (conv : Bool) : JsonP := ⟨(JsonP.ofBytes t conv).lex, ⟨.Done, .Init, [], true⟩⟩

theorem begun_at (t : Bytes) (conv : Bool) : At conv ⟨.Done, .Init, [], true⟩ t (begun t conv) :=
  ⟨rfl, ⟨by simp [begun, JsonP.ofBytes, StrIn.ofBytes, StrIn.rest], rfl, by simp [begun, JsonP.ofBytes, StrIn.ofBytes]⟩, rfl⟩

/-- The call did not succeed. -/
def Unaccepted {α : Type} (r : Report α) : Prop := (∀ x, r.fate ≠ .returned true x) ∧ r.stream ≠ some true

theorem handle_unaccepted {α : Type} (pol : Policy) (e : Exc) : Unaccepted (pol.handle e : Report α) := by
  cases e <;> unfold Policy.handle <;> dsimp only <;> (try split) <;> exact ⟨by simp, by simp⟩

/-- The end of the import, when what was imported is left in a state in `Q`. -/
theorem extract_unaccepted {Q : PI JsonP → Prop} {env : Env} {cfg : Cfg} {pol : Policy} {conv : Bool} {ty : Ty} {old : Val} {t : Bytes}
    (h : Yields (fun x => Q x.2) (deser JsonP.ops env cfg ty old (PI.init (begun t conv))))
    (hq : ∀ p, Q p → ((trailing JsonP.inOps pol p).1 = true ∨
      ∀ p', (trailing JsonP.inOps pol p).2.getToken JsonP.ops = .ok (.DocEnd, p') → p'.inner.lex.inp.good = false)) :
    Unaccepted (jsonExtract env cfg pol conv ty old t) := by
  have hstart : (PI.init (JsonP.ofBytes t conv)).getToken JsonP.ops = .ok (.DocStart, PI.init (begun t conv)) := rfl
  unfold jsonExtract extract
  simp only [show JsonP.inOps.ops = JsonP.ops from rfl, hstart, Res.ok_bind, ne_eq, not_true_eq_false, if_false]
  cases hd : deser JsonP.ops env cfg ty old (PI.init (begun t conv)) with
  | ub => exact ⟨by simp, by simp⟩
  | throw e => exact handle_unaccepted pol e
  | ok x =>
    obtain ⟨v, p⟩ := x
    have h1 := hq p (h _ hd)
    dsimp only
    generalize trailing JsonP.inOps pol p = y at h1
    obtain ⟨junk, p1⟩ := y
    dsimp only at h1 ⊢
    cases hg : p1.getToken JsonP.ops with
    | ub => exact ⟨by simp, by simp⟩
    | throw e => dsimp only; split <;> first | exact handle_unaccepted pol e | exact ⟨by simp, by simp⟩
    | ok z =>
      obtain ⟨k, p2⟩ := z
      dsimp only
      split
      · split <;> first | exact handle_unaccepted pol _ | exact ⟨by simp, by simp⟩
      · rename_i hk
        split
        · exact handle_unaccepted pol _
        · rename_i hj
          have hk' : k = .DocEnd := by simpa using hk
          subst hk'
          have hb : JsonP.inOps.ok p2.inner = false := (h1.resolve_left hj) p2 hg
          rw [hb]
          exact ⟨by simp, by simp⟩

/-- Where a container is cut, the import does not succeed. -/
theorem container_unaccepted {w : Prop} {ws : Bytes} {c : Byte} {u : Bytes} (hw : Ws ws) (hc : c = 0x7B ∨ c = 0x5B) (hu : Cut w 1 u) {env : Env} {cfg : Cfg}
    (hk : cfg.strict = .Weak → w) (pol : Policy) (conv : Bool) (ty : Ty) (old : Val) : Unaccepted (jsonExtract env cfg pol conv ty old (ws ++ c :: u)) := by
  have hs : Start w conv (begun (ws ++ c :: u) conv) := ⟨rfl, rfl, ⟨ws, c, u, hw, hc, hu, (begun_at _ conv).inp⟩, rfl⟩
  have W := cut_watch (w := w) (conv := conv)
  have hpre : FPre (CutInv w conv) (CutF w conv) (CutV w conv) (fun t => t ≠ .DocEnd) (PI.init (begun (ws ++ c :: u) conv)) :=
    ⟨.inr (.inr hs), rfl, by simp [PI.init], fun h => absurd rfl h, by simp [PI.init]⟩
  refine extract_unaccepted (deser_watchF W hk env ty old _ hpre) fun p hp => ?_
  by_cases hv : (trailing JsonP.inOps pol p).1 = true
  · exact .inl hv
  right
  have hcl : FClean (CutInv w conv) (trailing JsonP.inOps pol p).2 := by
    unfold trailing at hv ⊢
    split
    · rename_i h1
      rw [if_pos h1] at hv
      dsimp only at hv ⊢
      split
      · rename_i h2
        refine ⟨?_, hp.pb1, hp.pb2⟩
        -- the end of the data was reached
        have hjunk : Junk (p.inner.lex.inp.readChar).2.clear := by
          have h2' : (p.inner.lex.inp.readChar).2.good = false := h2
          refine ⟨?_, fun _ => rfl⟩
          have : (p.inner.lex.inp.readChar).2.rest = [] := by
            unfold StrIn.readChar at h2' ⊢
            dsimp only at h2' ⊢
            unfold StrIn.rest
            dsimp only
            rw [List.drop_eq_nil_of_le]
            simp at h2'
            omega
          show NoClose (p.inner.lex.inp.readChar).2.rest
          rw [this]
          exact noClose_nil
        rcases hp.inner with h | h | h
        · exact .inl h
        · exact .inr (.inl ⟨h.started, h.conv, h.ctl, .inr hjunk⟩)
        · exfalso
          obtain ⟨ws, c, t, -, hc, -, hat⟩ := h.text
          have hgood : (p.inner.lex.inp.readChar).2.good = false := h2
          have hlen := at_len hat
          simp only [List.length_append, List.length_cons] at hlen
          unfold StrIn.readChar at hgood
          rw [if_pos (by omega)] at hgood
          have hle : spaces (p.inner.lex.inp.data.drop p.inner.lex.inp.pos) ≤ ws.length := by
            rw [show p.inner.lex.inp.data.drop p.inner.lex.inp.pos = ws ++ c :: t from hat.1]
            have hsp : ∀ (a : Bytes), spaces (a ++ c :: t) ≤ a.length := by
              intro a
              induction a with
              | nil => rcases hc with rfl | rfl <;> simp [spaces, isSpace]
              | cons b a ih =>
                simp only [List.cons_append, spaces, List.length_cons]
                split <;> omega
            exact hsp ws
          simp at hgood
          omega
      · rename_i h2
        rw [if_neg h2] at hv
        exact absurd rfl hv
    · exact hp
  intro p' e
  have := (FTok.getToken W ⟨hcl.inner, hcl.pb2, by rw [hcl.pb1]; decide⟩) _ e
  exact absurd rfl this.2

/-- A value that cannot be read without failing the input. -/
theorem scalar_unaccepted {t : Bytes} {conv : Bool} {env : Env} {cfg : Cfg} (pol : Policy) (ty : Ty) (old : Val) {s1 : JsonP}
    (hn : (begun t conv).getNextToken = .ok (.Value, s1)) (hd : s1.ctl.currentState = .Done) (hst : s1.ctl.started = true)
    (hi : ∀ k, s1.getInt k = throwStd) (hf : ∀ f, s1.getFlt f = throwStd) (hb : s1.getBool = throwStd)
    (hs : s1.getStr = throwStd ∨ ∃ x, s1.getStr = .ok x ∧ x.2.lex.inp.good = false)
    (h0 : s1.isValueNull = true → ∃ s2, s1.ignoreDataValue = .ok s2 ∧ s2.lex.inp.good = false) :
    Unaccepted (jsonExtract env cfg pol conv ty old t) := by
  have hctl := reads_ctl (s := s1)
  have hw := value_watch (o := JsonP.ops) (Q := fun s => s.lex.inp.good = false ∧ s.ctl = s1.ctl) (s := begun t conv) (s1 := s1) hn
    (fun k => by rw [show JsonP.ops.getInt k s1 = _ from hi k]; exact ⟨.throwStd, by intro h; cases h⟩)
    (fun f => by rw [show JsonP.ops.getFlt f s1 = _ from hf f]; exact ⟨.throwStd, by intro h; cases h⟩)
    (by rw [show JsonP.ops.getBool s1 = _ from hb]; exact ⟨.throwStd, by intro h; cases h⟩)
    (by
      show Yields _ s1.getStr ∧ s1.getStr ≠ .ub
      rcases hs with h | ⟨x, h, hx⟩
      · rw [h]; exact ⟨.throwStd, by intro h; cases h⟩
      · have := hctl.2.2.2.1 x h
        rw [h]; exact ⟨.ok ⟨hx, this⟩, by intro h; cases h⟩)
    (fun h => by
      obtain ⟨s2, e, h2⟩ := h0 h
      exact ⟨s2, e, h2, hctl.2.2.2.2.2 s2 e⟩) env cfg ty old
  refine extract_unaccepted (Q := fun p => ∃ s, p = PI.init s ∧ s.lex.inp.good = false ∧ s.ctl = s1.ctl) hw ?_
  rintro p ⟨s, rfl, h1, h2⟩
  right
  have ht : trailing JsonP.inOps pol (PI.init s) = (false, PI.init s) := by
    unfold trailing
    rw [if_neg]
    rintro ⟨-, h⟩
    rw [show JsonP.inOps.ok (PI.init s).inner = s.lex.inp.good from rfl, h1] at h
    cases h
  rw [ht]
  intro p' e
  unfold PI.getToken at e
  simp only [PI.init, ne_eq, not_true_eq_false, if_false] at e
  have hnx : JsonP.ops.next s = .ok (.DocEnd, { s with ctl := { s.ctl with currentState := .Error } }) := by
    show s.getNextToken = _
    unfold JsonP.getNextToken
    rw [h2, if_neg (by simp [hst]), if_pos hd]
  rw [hnx] at e
  simp only [Res.ok_bind, Res.pure_eq, Res.ok.injEq, Prod.mk.injEq, true_and] at e
  rw [← e]
  exact h1

theorem init_value {t : Bytes} {conv : Bool} {w : Bytes} {ch : Byte} {u : Bytes} (e : t = w ++ ch :: u) (hw : Ws w) (hs : isSpace ch = false)
    (hc : Lexer.classify ch = .true_ ∨ Lexer.classify ch = .false_ ∨ Lexer.classify ch = .null_ ∨ Lexer.classify ch = .string ∨ Lexer.classify ch = .number) :
    ∃ l, (begun t conv).getNextToken = .ok (.Value, ⟨l, ⟨.Done, .Done, [], true⟩⟩) ∧ Lexed conv ch u l ∧ l.buffer = [] := by
  have hat := begun_at t conv
  rw [e] at hat
  obtain ⟨l, h1, h2⟩ := next_lex (c' := ⟨.Done, .Done, [], true⟩) (tok := .Value) rfl (by simp) (by simp) hat hw hs
    (by rcases hc with h | h | h | h | h <;> (rw [h]; rfl))
  have hl : l = ((begun t conv).lex.yylex).2 := by
    rw [e]
    rw [← e] at h1 ⊢
    unfold JsonP.getNextToken at h1
    rw [if_neg (by simp [begun]), if_neg (by simp [begun]), if_neg (by simp [begun])] at h1
    unfold JsonP.lexStep at h1
    dsimp only at h1
    have hf : ∃ o, (begun t conv).ctl.feed (begun t conv).lex.yylex.1 = .ok (some o, ⟨.Done, .Done, [], true⟩) := by
      obtain ⟨l', e1, -⟩ := yylex_at (l := (begun t conv).lex) (conv := conv) (by rw [e]; exact hat.inp) rfl hw hs
      rw [e1]
      exact ⟨.Value, by rcases hc with h | h | h | h | h <;> (rw [h]; rfl)⟩
    obtain ⟨o, hf⟩ := hf
    rw [hf] at h1
    simp only [Res.ok_bind, Res.pure_eq, Res.ok.injEq, Prod.mk.injEq, JsonP.mk.injEq, and_true] at h1
    exact h1.2.symm
  refine ⟨l, by rw [e]; rw [← e] at h1 ⊢; exact h1, h2, ?_⟩
  rw [hl]
  rfl

/-- A document cut inside a literal. -/
theorem literal_unaccepted {w p check : Bytes} (hw : Ws w) (hc : check = b!"true" ∨ check = b!"false" ∨ check = b!"null") (hp : p ≠ []) {r : Bytes} (hr : r ≠ [])
    (e : p ++ r = check) {env : Env} {cfg : Cfg} (pol : Policy) (conv : Bool) (ty : Ty) (old : Val) : Unaccepted (jsonExtract env cfg pol conv ty old (w ++ p)) := by
  have hp' : ∃ n, n < check.length ∧ 0 < n ∧ p = check.take n := by
    refine ⟨p.length, ?_, ?_, ?_⟩
    · rw [← e]
      have : r.length ≠ 0 := by simpa using hr
      simp only [List.length_append]
      omega
    · have : p.length ≠ 0 := by simpa using hp
      omega
    · rw [← e]; simp
  obtain ⟨n, h1, h2, hpn⟩ := hp'
  have key : ∀ (ch : Byte) (u : Bytes), p = ch :: u → isSpace ch = false → isDigit ch = false → ch ≠ 0x2D → ch ≠ 0x2E → ch ≠ 0x22 → isPunct ch = false →
      scanSpecial false (ch :: u) = none →
      ((Lexer.classify ch = .true_ ∧ (p ++ (List.replicate 4 0).drop p.length) ≠ b!"true" ∧ p.length ≤ 4) ∨
        (Lexer.classify ch = .false_ ∧ (p ++ (List.replicate 5 0).drop p.length) ≠ b!"false" ∧ p.length ≤ 5) ∨
        (Lexer.classify ch = .null_ ∧ p.length < 4)) → Unaccepted (jsonExtract env cfg pol conv ty old (w ++ p)) := by
    intro ch u hpu hs hd hm hpt hq hpu' hsp hcl
    obtain ⟨l, e1, hl, hbuf⟩ := init_value (t := w ++ p) (conv := conv) (w := w) (ch := ch) (u := u) (by rw [hpu]) hw hs
      (by rcases hcl with h | h | h <;> simp [h.1])
    have hin : AtI (ch :: u) l.inp := by
      have := hl.inp
      rwa [if_neg (by simp [hpu'])] at this
    have hlen := at_len hin
    rw [← hpu] at hlen
    have hrest : l.inp.data.drop l.inp.pos = p := by rw [hpu]; exact hin.1
    refine scalar_unaccepted pol ty old e1 rfl rfl ?_ ?_ ?_ (.inl ?_) ?_
    · intro k
      unfold JsonP.getInt
      rw [scanInt_bad k hd (fun h => absurd h hm) hin.2.1 hin.1]
      rfl
    · intro f
      unfold JsonP.getFlt
      rw [scanFlt_bad f hd hm hpt hsp hin.2.1 hin.1]
      rfl
    · unfold JsonP.getBool Lexer.getLastBool Lexer.checkFixed StrIn.read
      dsimp only
      rw [hl.tok]
      rcases hcl with ⟨h, hne, hle⟩ | ⟨h, hne, hle⟩ | ⟨h, -⟩
      · simp only [h]
        rw [if_neg (by omega), hrest, hbuf]
        simp only [Res.ok_bind]
        rw [if_neg]
        · rfl
        · rw [List.take_of_length_le (by simpa using hle)]
          exact hne
      · simp only [h]
        rw [if_neg (by omega), hrest, hbuf]
        simp only [Res.ok_bind]
        rw [if_neg]
        · rfl
        · rw [List.take_of_length_le (by simpa using hle)]
          exact hne
      · simp only [h]
        rfl
    · unfold JsonP.getStr
      rw [getString_bad hin hq]
      rfl
    · intro hn
      rcases hcl with ⟨h, -⟩ | ⟨h, -⟩ | ⟨h, hle⟩
      · exact absurd (show l.lastNull = true from hn) (by rw [hl.null, h]; decide)
      · exact absurd (show l.lastNull = true from hn) (by rw [hl.null, h]; decide)
      · refine ⟨⟨{ l with inp := l.inp.ignore 4 }, ⟨.Done, .Done, [], true⟩⟩, ?_, ?_⟩
        · unfold JsonP.ignoreDataValue Lexer.ignoreRawValue
          dsimp only
          rw [hl.tok, h]
          rfl
        · show decide _ = false
          rw [decide_eq_false_iff_not]
          have := hlen
          omega
  rcases hc with rfl | rfl | rfl
  · have h1' : n < 4 := h1
    obtain rfl | rfl | rfl : n = 1 ∨ n = 2 ∨ n = 3 := by omega
    all_goals exact key _ _ hpn (by decide) (by decide) (by decide) (by decide) (by decide) (by decide) (scanSpecial_head (by decide) (by decide)) (.inl ⟨by decide, by rw [hpn]; decide, by rw [hpn]; decide⟩)
  · have h1' : n < 5 := h1
    obtain rfl | rfl | rfl | rfl : n = 1 ∨ n = 2 ∨ n = 3 ∨ n = 4 := by omega
    all_goals exact key _ _ hpn (by decide) (by decide) (by decide) (by decide) (by decide) (by decide) (scanSpecial_head (by decide) (by decide)) (.inr (.inl ⟨by decide, by rw [hpn]; decide, by rw [hpn]; decide⟩))
  · have h1' : n < 4 := h1
    obtain rfl | rfl | rfl : n = 1 ∨ n = 2 ∨ n = 3 := by omega
    all_goals exact key _ _ hpn (by decide) (by decide) (by decide) (by decide) (by decide) (by decide) (by decide) (.inr (.inr ⟨by decide, by rw [hpn]; decide⟩))

/-- A document cut inside a string. -/
theorem string_unaccepted {w body : Bytes} (hw : Ws w) (hb : splitQuote false body = none) {env : Env} {cfg : Cfg} (pol : Policy) (conv : Bool) (ty : Ty) (old : Val) :
    Unaccepted (jsonExtract env cfg pol conv ty old (w ++ 0x22 :: body)) := by
  obtain ⟨l, e1, hl, -⟩ := init_value (t := w ++ 0x22 :: body) (conv := conv) rfl hw (by decide) (by decide)
  have hin : AtI (0x22 :: body) l.inp := hl.inp
  refine scalar_unaccepted pol ty old e1 rfl rfl ?_ ?_ ?_ ?_ ?_
  · intro k
    unfold JsonP.getInt
    rw [scanInt_bad k (by decide) (fun h => absurd h (by decide)) hin.2.1 hin.1]
    rfl
  · intro f
    unfold JsonP.getFlt
    rw [scanFlt_bad f (by decide) (by decide) (by decide) (scanSpecial_head (by decide) (by decide)) hin.2.1 hin.1]
    rfl
  · unfold JsonP.getBool Lexer.getLastBool
    dsimp only
    rw [hl.tok]
    rfl
  · rcases getStringInto_none l body hin.2.1 hin.1 hb with h | ⟨v, h⟩
    · left
      unfold JsonP.getStr
      dsimp only
      rw [h]
      rfl
    · right
      refine ⟨(v, ⟨{ l with inp := { l.inp with pos := l.inp.data.length + 1, good := false } }, ⟨.Done, .Done, [], true⟩⟩), ?_, ?_⟩
      · unfold JsonP.getStr
        dsimp only
        rw [h]
        rfl
      · rfl
  · intro hn
    exact absurd (show l.lastNull = true from hn) (by rw [hl.null]; decide)

/-- A document cut before its value begins. -/
theorem blank_unaccepted {w : Bytes} (hw : Ws w) {env : Env} {cfg : Cfg} (pol : Policy) (conv : Bool) (ty : Ty) (old : Val) :
    Unaccepted (jsonExtract env cfg pol conv ty old w) := by
  have hsp : spaces w = w.length := by
    revert hw
    induction w with
    | nil => intro _; rfl
    | cons c w ih =>
      intro hw
      have hc : isSpace c = true := by rcases hw c (by simp) with rfl | rfl | rfl | rfl <;> decide
      simp only [spaces, hc, if_true, List.length_cons]
      rw [ih (fun d hd => hw d (by simp [hd]))]
  have hpk : peekNextNonSpace (StrIn.ofBytes w) = (0xFF, ⟨w, w.length, true⟩) := by
    unfold peekNextNonSpace StrIn.readChar
    simp only [StrIn.ofBytes, Nat.zero_le, if_true, List.drop_zero, hsp, Nat.zero_add, Nat.lt_irrefl, if_false]
    rw [if_neg (by decide)]
    simp [StrIn.unget]
  have hy : ∃ l, (begun w conv).lex.yylex = (.number, l) ∧ l.inp = ⟨w, w.length, true⟩ ∧ l.lastToken = some .number ∧ l.lastNull = false := by
    unfold Lexer.yylex
    rw [show (begun w conv).lex.inp = StrIn.ofBytes w from rfl, hpk]
    exact ⟨_, rfl, rfl, rfl, rfl⟩
  obtain ⟨l, hy, hi, htok, hnull⟩ := hy
  have e1 : (begun w conv).getNextToken = .ok (.Value, ⟨l, ⟨.Done, .Done, [], true⟩⟩) := by
    unfold JsonP.getNextToken
    rw [if_neg (by simp [begun]), if_neg (by simp [begun]), if_neg (by simp [begun])]
    unfold JsonP.lexStep
    rw [hy]
    rfl
  have hz : checkZero l.inp = .ok l.inp := by
    rw [hi]
    unfold checkZero StrIn.peek
    rw [if_neg]
    simp [EOFv]
  refine scalar_unaccepted pol ty old e1 rfl rfl ?_ ?_ ?_ (.inl ?_) ?_
  · intro k
    unfold JsonP.getInt Lexer.scanInt readIntValue
    dsimp only
    rw [hz, hi]
    simp only [Res.ok_bind, StrIn.readInt, Nat.lt_irrefl, gt_iff_lt, if_false, List.drop_length, fromChars, validateResult, Res.pure_eq, Bool.false_eq_true, false_and, decide_false,
      not_false_eq_true, if_true]
    rfl
  · intro f
    unfold JsonP.getFlt Lexer.scanFlt readFltValue
    dsimp only
    rw [hz, hi]
    simp only [Res.ok_bind, StrIn.readFlt, Nat.lt_irrefl, gt_iff_lt, if_false, List.drop_length, fromCharsF, Res.pure_eq, Bool.false_eq_true,
      not_false_eq_true, if_true]
    rfl
  · unfold JsonP.getBool Lexer.getLastBool
    dsimp only
    rw [htok]
    rfl
  · have hg : (⟨w, w.length, true⟩ : StrIn).get = (EOFv, ⟨w, w.length, true⟩) := by
      unfold StrIn.get
      rw [if_neg (by simp)]
    unfold JsonP.getStr Lexer.getStringInto
    dsimp only
    rw [hi, hg]
    rfl
  · intro hn
    exact absurd (show l.lastNull = true from hn) (by rw [hnull]; decide)

theorem skippable_conv (conv : Bool) (v : JTree) : v.skippable (jsem conv) = v.skippable (jsem true) := by
  induction v using Spec.Tr.induct with
  | hs x => cases x <;> rfl
  | ha vs ih =>
    show Tr.skippable.all _ vs = Tr.skippable.all _ vs
    induction vs with
    | nil => rfl
    | cons v vs ih2 =>
      simp only [Tr.skippable.all]
      rw [ih v (by simp), ih2 (fun u hu => ih u (by simp [hu]))]
  | ho ms ih =>
    show Tr.skippable.allM _ ms = Tr.skippable.allM _ ms
    induction ms with
    | nil => rfl
    | cons m ms ih2 =>
      obtain ⟨k, v⟩ := m
      simp only [Tr.skippable.allM]
      rw [ih (k, v) (by simp), ih2 (fun u hu => ih u (by simp [hu]))]
      rfl

/-- A document that is cut, whatever its value, unless it is a number. -/
theorem cut_unaccepted {v : JTree} {w tv t rest : Bytes} (hw : Ws w) (hv : JText codePair v tv) (hn : ∀ x, v = .scalar x → x.number = none) (hr : rest ≠ [])
    (e : t ++ rest = w ++ tv) {env : Env} {cfg : Cfg} {conv : Bool} (hk : cfg.strict = .Weak → v.skippable (jsem conv) = true) (pol : Policy) (ty : Ty) (old : Val) :
    Unaccepted (jsonExtract env cfg pol conv ty old t) := by
  rcases List.append_eq_append_iff.1 e with ⟨a, h1, h2⟩ | ⟨u, h1, h2⟩
  · refine blank_unaccepted (fun c hc => hw c ?_) pol conv ty old
    rw [h1]
    exact List.mem_append_left _ hc
  · subst h1
    by_cases hu : u = []
    · subst hu
      rw [List.append_nil]
      exact blank_unaccepted hw pol conv ty old
    cases v with
    | scalar x =>
      have hx : ScalarText codePair x tv := hv
      have hnx := hn x rfl
      cases x with
      | null => exact literal_unaccepted (check := b!"null") hw (by simp) hu hr (by rw [← h2]; exact hx) pol conv ty old
      | bool b =>
        cases b with
        | true => exact literal_unaccepted (check := b!"true") hw (by simp) hu hr (by rw [← h2]; exact hx) pol conv ty old
        | false => exact literal_unaccepted (check := b!"false") hw (by simp) hu hr (by rw [← h2]; exact hx) pol conv ty old
      | int t i =>
        obtain ⟨rfl, h3, h4⟩ := hx
        exact absurd hnx (by simp [JScalar.number])
      | frac t x => exact absurd hnx (by simp [JScalar.number])
      | str s =>
        obtain ⟨hb, ht⟩ := hx
        rw [ht] at h2
        cases u with
        | nil => exact absurd rfl hu
        | cons q body =>
          simp only [List.cons_append, List.nil_append, List.cons.injEq] at h2
          obtain ⟨rfl, h2⟩ := h2
          refine string_unaccepted hw ?_ pol conv ty old
          refine splitQuote_prefix body false rest s.raw [] ?_ ?_
          · rw [← h2]; exact splitQuote_body hb []
          · have := congrArg List.length h2
            have h3 : rest.length ≠ 0 := by simpa using hr
            simp only [List.length_append, List.length_cons, List.length_nil] at this
            omega
    | arr vs =>
      rcases cut_container (w := cfg.strict = .Weak) (by simp) hv (fun h => by rw [← skippable_conv conv]; exact hk h) hr h2.symm with h | ⟨o, u', rfl, ho, hc⟩
      · exact absurd h hu
      · exact container_unaccepted hw ho hc (fun h => h) pol conv ty old
    | obj ms =>
      rcases cut_container (w := cfg.strict = .Weak) (by simp) hv (fun h => by rw [← skippable_conv conv]; exact hk h) hr h2.symm with h | ⟨o, u', rfl, ho, hc⟩
      · exact absurd h hu
      · exact container_unaccepted hw ho hc (fun h => h) pol conv ty old

end Thors
