import Verif.Model.IndentShared
import Verif.Proofs.JsonPrint
import Verif.Proofs.JsonExport
/-
Performing the actions of one export alone gives the text; the buffer is left as it was.
-/
namespace Thors
open Spec
namespace JPrint

/-- Actions come in blocks: private ones, and a bracket put into the buffer, written, and replaced by a space. -/
inductive Blocks : List Act → Prop
  | nil : Blocks []
  | out {w as} : Blocks as → Blocks (.out w :: as)
  | bracket {n c as} : 0 < n → n ≤ 4003 → Blocks as → Blocks (.put n c :: .copy (n + 1) :: .put n 0x20 :: as)

theorem Blocks.append {a b : List Act} (ha : Blocks a) (hb : Blocks b) : Blocks (a ++ b) := by
  induction ha with
  | nil => exact hb
  | out _ ih => exact .out ih
  | bracket h1 h2 _ ih => exact .bracket h1 h2 ih
theorem Blocks.outs : ∀ ws : List Write, Blocks (ws.map .out)
  | [] => .nil
  | _ :: ws => .out (Blocks.outs ws)

theorem buf_length : indentBuffer.length = 4005 := by
  simp only [indentBuffer, List.length_append, List.length_cons, List.length_replicate, List.length_nil]
theorem buf_take (n : Nat) (c : Byte) (hn : n ≤ 4003) : (indentBuffer.set n c).take (n + 1) = indentBuffer.take n ++ [c] := by
  rw [List.take_add_one, List.getElem?_set_self (by rw [buf_length]; omega), List.take_set_of_le (Nat.le_refl n)]
  rfl
theorem buf_restore (n : Nat) (c : Byte) (h0 : 0 < n) (hn : n ≤ 4003) : (indentBuffer.set n c).set n 0x20 = indentBuffer := by
  rw [List.set_set]
  have hlen : n < indentBuffer.length := by rw [buf_length]; omega
  have : indentBuffer[n] = 0x20 := by
    have e : indentBuffer = (0x0A :: List.replicate 4003 (0x20 : UInt8)) ++ [0x00] := rfl
    simp only [e]
    rw [List.getElem_append_left (by simp only [List.length_cons, List.length_replicate]; omega)]
    obtain ⟨m, rfl⟩ : ∃ m, n = m + 1 := ⟨n - 1, by omega⟩
    rw [List.getElem_cons_succ, List.getElem_replicate]
  rw [← this, List.set_getElem_self hlen]

/-- What a list of blocks writes. -/
def textOf : List Act → List Write
  | .out w :: as => w :: textOf as
  | .put n c :: .copy _ :: .put _ _ :: as => .chars (indentBuffer.take n ++ [c]) :: textOf as
  | _ => []

theorem textOf_append {a b : List Act} (ha : Blocks a) : textOf (a ++ b) = textOf a ++ textOf b := by
  induction ha with
  | nil => rfl
  | out _ ih => simp [textOf, ih]
  | bracket _ _ _ ih => simp [textOf, ih]
theorem textOf_outs : ∀ ws : List Write, textOf (ws.map .out) = ws
  | [] => rfl
  | w :: ws => by simp [textOf, textOf_outs ws]

theorem perform_blocks {as : List Act} (h : Blocks as) : ∀ text, performAll as indentBuffer text = (indentBuffer, text ++ textOf as) := by
  induction h with
  | nil => intro text; simp [performAll, textOf]
  | out _ ih => intro text; simp [performAll, Act.perform, textOf, ih]
  | bracket h1 h2 _ ih =>
    intro text
    simp only [performAll, Act.perform, buf_take _ _ h2, buf_restore _ _ h1 h2, ih, textOf]
    simp

/-- Before a private action the buffer is as it was. -/
theorem blocks_cut {as : List Act} (h : Blocks as) : ∀ {a b : List Act} {w : Write}, as = a ++ .out w :: b → Blocks a := by
  induction h with
  | nil => intro a b w e; exact absurd e (by simp)
  | out _ ih =>
    intro a b w e
    cases a with
    | nil => exact .nil
    | cons x a =>
      simp only [List.cons_append, List.cons.injEq] at e
      rw [← e.1]
      exact .out (ih e.2)
  | bracket h1 h2 _ ih =>
    intro a b w e
    match a, e with
    | [], e => simp at e
    | [_], e => simp at e
    | [_, _], e => simp at e
    | x :: y :: z :: a, e =>
      simp only [List.cons_append, List.cons.injEq] at e
      rw [← e.1, ← e.2.1, ← e.2.2.1]
      exact .bracket h1 h2 (ih e.2.2.2)

/-- No indentation down to depth `h` is empty. -/
def SomeIndent (cfg : PrintCfg) (h : Nat) : Prop := cfg.layout = .Stream ∨ ∀ k ≤ h, 0 < width cfg k ∧ width cfg k ≤ 4003

theorem SomeIndent.mono {cfg : PrintCfg} {h h' : Nat} (hf : SomeIndent cfg h) (hle : h' ≤ h) : SomeIndent cfg h' :=
  hf.imp_right (fun hw k hk => hw k (Nat.le_trans hk hle))

/-- Brackets are written at depth at most `k`, where `k` is one more than the deepest bracket so far. -/
inductive Steps (cfg : PrintCfg) (h : Nat) : Nat → List Act → Prop
  | nil {k} : Steps cfg h k []
  | out {k w as} : Steps cfg h k as → Steps cfg h k (.out w :: as)
  | bracket {k j c as} : j ≤ k → j ≤ h → Steps cfg h (max k (j + 1)) as →
      Steps cfg h k (.put (width cfg j) c :: .copy (width cfg j + 1) :: .put (width cfg j) 0x20 :: as)

theorem Steps.mono {cfg : PrintCfg} {h : Nat} {k : Nat} {as : List Act} (hs : Steps cfg h k as) : ∀ {k'}, k ≤ k' → Steps cfg h k' as := by
  induction hs with
  | nil => intro _ _; exact .nil
  | out _ ih => intro _ hk; exact .out (ih hk)
  | bracket h1 h2 _ ih => intro _ hk; exact .bracket (by omega) h2 (ih (by omega))
theorem Steps.append {cfg : PrintCfg} {h : Nat} {k : Nat} {a b : List Act} (ha : Steps cfg h k a) (hb : Steps cfg h k b) : Steps cfg h k (a ++ b) := by
  induction ha with
  | nil => exact hb
  | out _ ih => exact .out (ih hb)
  | bracket h1 h2 _ ih => exact .bracket h1 h2 (ih (hb.mono (by omega)))
theorem Steps.outs {cfg : PrintCfg} {h : Nat} {k : Nat} : ∀ ws : List Write, Steps cfg h k (ws.map .out)
  | [] => .nil
  | _ :: ws => .out (Steps.outs ws)

theorem indentActs_ok {cfg : PrintCfg} {h k : Nat} (hf : SomeIndent cfg h) (hk : k ≤ h) (b : Bool) (hb : cfg.layout = .Stream → b = false) (c : Byte) :
    ∃ as ws, indentActs cfg k b c = .ok as ∧ Blocks as ∧ indentSuffix cfg k b c = .ok ws ∧ textOf as = ws ∧ (∀ k', k ≤ k' → Steps cfg h k' as) ∧
      (b = true → ∀ rest, Steps cfg h (k + 1) rest → Steps cfg h k (as ++ rest)) := by
  cases b with
  | false => exact ⟨_, _, rfl, .out .nil, rfl, rfl, fun _ _ => .out .nil, fun h => by cases h⟩
  | true =>
    have hw : 0 < width cfg k ∧ width cfg k ≤ 4003 := by
      rcases hf with h1 | h1
      · exact absurd (hb h1) (by simp)
      · exact h1 k hk
    refine ⟨[.put (width cfg k) c, .copy (width cfg k + 1), .put (width cfg k) 0x20], [.chars (indentBuffer.take (width cfg k) ++ [c])], ?_,
      .bracket hw.1 hw.2 .nil, ?_, rfl, fun k' h' => .bracket h' hk .nil,
      fun _ rest hr => .bracket (Nat.le_refl k) hk (hr.mono (by omega))⟩
    · simp [indentActs, hw.2]
    · simp [indentSuffix, hw.2]

theorem runActs_append (cfg : PrintCfg) (a b : List Cmd) : ∀ ss, runActs cfg (a ++ b) ss = (do
    let (w, ss) ← runActs cfg a ss
    let (ws, ss) ← runActs cfg b ss
    return (w ++ ws, ss)) := by
  induction a with
  | nil =>
    intro ss
    simp only [List.nil_append, runActs, Res.ok_bind, Res.pure_eq]
    cases runActs cfg b ss <;> simp
  | cons c a ih =>
    intro ss
    simp only [List.cons_append, runActs, ih]
    cases stepActs cfg c ss with
    | ok r =>
      obtain ⟨w, ss1⟩ := r
      simp only [Res.ok_bind]
      cases runActs cfg a ss1 with
      | ok r =>
        obtain ⟨w2, ss2⟩ := r
        simp only [Res.ok_bind, Res.pure_eq]
        cases runActs cfg b ss2 <;> simp
      | _ => rfl
    | _ => rfl

section
variable (cfg : PrintCfg) (h : Nat) (hf : SomeIndent cfg h)
include hf

mutual
theorem acts_doc : ∀ (d : Doc) (st : PState) (ss : List PState), ss.length + nesting d ≤ h →
    ∃ as ws st', runActs cfg (cmdsOf d) (st :: ss) = .ok (as, st' :: ss) ∧ run cfg (cmdsOf d) (st :: ss) = .ok (ws, st' :: ss) ∧
      st'.f1 = st.f1 ∧ Blocks as ∧ textOf as = ws ∧ (cfg.layout ≠ .Stream → Steps cfg h ss.length as)
  | .scalar a, st, ss, _ => by
    obtain ⟨ws, st', w, h1, -, h3, -, -⟩ := step_atom (ft := streamText) cfg a st ss
    have e : stepActs cfg (atomCmd a) (st :: ss) = .ok (ws.map .out, st' :: ss) := by
      cases a <;> simp only [atomCmd] at h1 ⊢ <;> simp only [stepActs, h1, Res.ok_bind, Res.pure_eq]
    exact ⟨ws.map .out, ws, st', by simp [cmdsOf, runActs, e], by simp [cmdsOf, run, h1], h3, .outs ws, textOf_outs ws, fun _ => .outs ws⟩
  | .arr ts, st, ss, hn => by
    rw [nesting] at hn
    obtain ⟨a1, w1, e1, b1, f1, t1, -, o1⟩ := indentActs_ok hf (k := ss.length) (by omega) (decide (cfg.layout ≠ .Stream)) (by intro h; simp [h]) 0x5B
    obtain ⟨a2, w2, st2, e2, f2, h2, b2, t2, s2⟩ := acts_elems ts ⟨0, .Array, false⟩ (st :: ss) (by simp; omega)
    obtain ⟨a3, w3, e3, b3, f3, t3, s3, -⟩ := indentActs_ok hf (k := ss.length) (by omega) (decide (cfg.layout ≠ .Stream ∧ st2.f2 = false))
      (by intro h; simp [h]) 0x5D
    refine ⟨(separator st false false).map .out ++ a1 ++ (a2 ++ a3), separator st false false ++ w1 ++ (w2 ++ w3), { st with f0 := st.f0 + 1 }, ?_, ?_, rfl,
      ((Blocks.outs _).append b1).append (b2.append b3), ?_, fun hl => ?_⟩
    · simp only [cmdsOf, List.cons_append, runActs, stepActs, e1, Res.ok_bind, Res.pure_eq, runActs_append, e2, h2, ne_eq, not_true_eq_false, if_false, e3]
      simp
    · simp only [cmdsOf, List.cons_append, run, step, f1, Res.ok_bind, Res.pure_eq, prun_append, f2, h2, ne_eq, not_true_eq_false, if_false, f3]
      simp
    · rw [textOf_append ((Blocks.outs _).append b1), textOf_append (Blocks.outs _), textOf_append b2, textOf_outs, t1, t2, t3]
    · rw [List.append_assoc]
      exact (Steps.outs _).append (o1 (by simp [hl]) _ ((s2 hl).append (s3 _ (by simp))))
  | .obj ms, st, ss, hn => by
    rw [nesting] at hn
    obtain ⟨a1, w1, e1, b1, f1, t1, -, o1⟩ := indentActs_ok hf (k := ss.length) (by omega) (decide (cfg.layout ≠ .Stream)) (by intro h; simp [h]) 0x7B
    obtain ⟨a2, w2, st2, e2, f2, h2, b2, t2, s2⟩ := acts_members ms ⟨0, .Map, false⟩ (st :: ss) rfl (by simp; omega)
    obtain ⟨a3, w3, e3, b3, f3, t3, s3, -⟩ := indentActs_ok hf (k := ss.length) (by omega) (decide (cfg.layout ≠ .Stream)) (by intro h; simp [h]) 0x7D
    refine ⟨(separator st false false).map .out ++ a1 ++ (a2 ++ a3), separator st false false ++ w1 ++ (w2 ++ w3), { st with f0 := st.f0 + 1 }, ?_, ?_, rfl,
      ((Blocks.outs _).append b1).append (b2.append b3), ?_, fun hl => ?_⟩
    · simp only [cmdsOf, List.cons_append, runActs, stepActs, e1, Res.ok_bind, Res.pure_eq, runActs_append, e2, h2, ne_eq, not_true_eq_false, if_false, e3]
      simp
    · simp only [cmdsOf, List.cons_append, run, step, f1, Res.ok_bind, Res.pure_eq, prun_append, f2, h2, ne_eq, not_true_eq_false, if_false, f3]
      simp
    · rw [textOf_append ((Blocks.outs _).append b1), textOf_append (Blocks.outs _), textOf_append b2, textOf_outs, t1, t2, t3]
    · rw [List.append_assoc]
      exact (Steps.outs _).append (o1 (by simp [hl]) _ ((s2 hl).append (s3 _ (by simp))))
theorem acts_elems : ∀ (ts : List Doc) (st : PState) (ss : List PState), ss.length + nesting.elems ts ≤ h →
    ∃ as ws st', runActs cfg (cmdsOf.elems ts) (st :: ss) = .ok (as, st' :: ss) ∧ run cfg (cmdsOf.elems ts) (st :: ss) = .ok (ws, st' :: ss) ∧
      st'.f1 = st.f1 ∧ Blocks as ∧ textOf as = ws ∧ (cfg.layout ≠ .Stream → Steps cfg h ss.length as)
  | [], st, ss, _ => ⟨[], [], st, rfl, rfl, rfl, .nil, rfl, fun _ => .nil⟩
  | t :: ts, st, ss, hn => by
    rw [nesting.elems] at hn
    obtain ⟨a1, w1, st1, e1, f1, h1, b1, t1, s1⟩ := acts_doc t st ss (by omega)
    obtain ⟨a2, w2, st2, e2, f2, h2, b2, t2, s2⟩ := acts_elems ts st1 ss (by omega)
    exact ⟨a1 ++ a2, w1 ++ w2, st2, by simp [cmdsOf.elems, runActs_append, e1, e2], by simp [cmdsOf.elems, prun_append, f1, f2], h2.trans h1, b1.append b2,
      by rw [textOf_append b1, t1, t2], fun hl => (s1 hl).append (s2 hl)⟩
theorem acts_members : ∀ (ms : List (Bytes × Doc)) (st : PState) (ss : List PState), st.f1 = .Map → ss.length + nesting.members ms ≤ h →
    ∃ as ws st', runActs cfg (cmdsOf.members ms) (st :: ss) = .ok (as, st' :: ss) ∧ run cfg (cmdsOf.members ms) (st :: ss) = .ok (ws, st' :: ss) ∧
      st'.f1 = st.f1 ∧ Blocks as ∧ textOf as = ws ∧ (cfg.layout ≠ .Stream → Steps cfg h ss.length as)
  | [], st, ss, _, _ => ⟨[], [], st, rfl, rfl, rfl, .nil, rfl, fun _ => .nil⟩
  | (k, t) :: ms, st, ss, hm, hn => by
    rw [nesting.members] at hn
    have hfw : FitsW cfg h := hf.imp_right fun h k hk => (h k hk).2
    obtain ⟨w0, i0, -, e0, -⟩ := indentPlain_ok (ft := streamText) hfw (k := ss.length) (by omega) (decide (cfg.layout ≠ .Stream)) (by intro h; simp [h])
    obtain ⟨a1, w1, st1, e1, f1, h1, b1, t1, s1⟩ := acts_doc t st ss (by omega)
    obtain ⟨a2, w2, st2, e2, f2, h2, b2, t2, s2⟩ := acts_members ms st1 ss (h1.trans hm) (by omega)
    have hk : step cfg (.addKey k) (st :: ss) = .ok (separator st true false ++ i0 ++ [.chars b!"\"", .chars k, .chars b!"\""], st :: ss) := by
      simp only [step, hm, ne_eq, not_true_eq_false, if_false, e0, Res.ok_bind, Res.pure_eq]
    generalize separator st true false ++ i0 ++ [.chars b!"\"", .chars k, .chars b!"\""] = wk at hk
    refine ⟨wk.map .out ++ (a1 ++ a2), wk ++ (w1 ++ w2), st2, ?_, ?_, h2.trans h1, (Blocks.outs _).append (b1.append b2), ?_, fun hl => (Steps.outs _).append ((s1 hl).append (s2 hl))⟩
    · simp only [cmdsOf.members, List.cons_append, runActs, stepActs, hk, Res.ok_bind, Res.pure_eq, runActs_append, e1, e2]
    · simp only [cmdsOf.members, List.cons_append, run, hk, Res.ok_bind, Res.pure_eq, prun_append, f1, f2]
    · rw [textOf_append (Blocks.outs _), textOf_append b1, textOf_outs, t1, t2]
end
end

theorem exportActs_doc (env : Env) (cfg : PrintCfg) (ty : Ty) (v : Val) (d : Doc) (h : docOf env cfg.marker ty v = .ok d)
    (hf : SomeIndent cfg (nesting d)) : ∃ as, exportActs env cfg ty v = .ok as ∧ Blocks as ∧ (cfg.layout ≠ .Stream → Steps cfg (nesting d) 0 as) ∧ jsonExport env cfg ty v = .ok (bytesOf (textOf as)) := by
  obtain ⟨as, ws, st, e, f, -, b, t, s⟩ := acts_doc cfg (nesting d) hf d ⟨0, .Value, false⟩ [] (by simp)
  refine ⟨as, ?_, b, s, ?_⟩
  · simp only [exportActs, ser_doc, h, Res.map'_ok, Res.ok_bind, init, e, Res.pure_eq]
  · simp only [jsonExport, ser_doc, h, Res.map'_ok, Res.ok_bind, init, f, Res.pure_eq, t]

/-- The indentation at depth `j` has at least one character, and fits. -/
def Good (cfg : PrintCfg) (j : Nat) : Prop := 0 < indentation cfg j ∧ indentation cfg j ≤ 4003

theorem good_width {cfg : PrintCfg} {j : Nat} (h : Good cfg j) : (width cfg j : Int) = indentation cfg j := by
  have e : width cfg j = (indentation cfg j % (2 ^ 64 : Nat)).toNat := rfl
  obtain ⟨h1, h2⟩ := h
  rw [Int.emod_eq_of_lt (by omega) (by omega)] at e
  omega

theorem indentation_mono {cfg : PrintCfg} (ht : 0 ≤ cfg.tabSize) {j k : Nat} (h : j ≤ k) : indentation cfg j ≤ indentation cfg k := by
  unfold indentation
  have : (j : Int) * (if cfg.tabSize = 0 then 4 else cfg.tabSize) ≤ (k : Int) * (if cfg.tabSize = 0 then 4 else cfg.tabSize) :=
    Int.mul_le_mul_of_nonneg_right (by omega) (by split <;> omega)
  omega

/-- The buffer may have something else than it had at the start where brackets of depth `k` and deeper are put. -/
def Smudged (cfg : PrintCfg) (k : Nat) (buf : Bytes) : Prop :=
  buf.length = indentBuffer.length ∧ ∀ i : Nat, buf[i]? = indentBuffer[i]? ∨ ∃ j, k ≤ j ∧ Good cfg j ∧ (i : Int) = indentation cfg j

theorem smudged_start (cfg : PrintCfg) (k : Nat) : Smudged cfg k indentBuffer := ⟨rfl, fun _ => .inl rfl⟩
theorem Smudged.zero {cfg : PrintCfg} {k : Nat} {buf : Bytes} (h : Smudged cfg k buf) : Smudged cfg 0 buf :=
  ⟨h.1, fun i => (h.2 i).imp_right fun ⟨j, _, h2⟩ => ⟨j, Nat.zero_le j, h2⟩⟩

theorem Smudged.put {cfg : PrintCfg} {buf : Bytes} (h : Smudged cfg 0 buf) {j : Nat} (hg : Good cfg j) (c : Byte) :
    Smudged cfg 0 (buf.set (width cfg j) c) := by
  refine ⟨by rw [List.length_set]; exact h.1, fun i => ?_⟩
  by_cases e : width cfg j = i
  · exact .inr ⟨j, Nat.zero_le j, hg, by rw [← e, good_width hg]⟩
  · rw [List.getElem?_set_ne e]
    exact h.2 i

theorem Smudged.take {cfg : PrintCfg} (ht : 0 ≤ cfg.tabSize) {k j : Nat} {buf : Bytes} (h : Smudged cfg k buf) (hj : j ≤ k) (hg : Good cfg j) :
    buf.take (width cfg j) = indentBuffer.take (width cfg j) := by
  apply List.ext_getElem?
  intro i
  rw [List.getElem?_take, List.getElem?_take]
  split
  · next hi =>
    rcases h.2 i with h1 | ⟨j', h1, -, h3⟩
    · exact h1
    · have := indentation_mono ht (Nat.le_trans hj h1)
      have := good_width hg
      omega
  · rfl

theorem Smudged.clear {cfg : PrintCfg} {k j : Nat} {buf : Bytes} (h : Smudged cfg k buf) (hg : Good cfg j) :
    Smudged cfg (max k (if k = j then j + 1 else 0)) (buf.set (width cfg j) 0x20) := by
  have hw := good_width hg
  refine ⟨by rw [List.length_set]; exact h.1, fun i => ?_⟩
  by_cases e : width cfg j = i
  · left
    subst e
    have hl : width cfg j < indentBuffer.length := by rw [buf_length]; have := hg.2; omega
    rw [List.getElem?_set_self (by rw [h.1]; exact hl)]
    have := buf_restore (width cfg j) 0x20 (by have := hg.1; omega) (by have := hg.2; omega)
    rw [List.set_set] at this
    conv => rhs; rw [← this]
    rw [List.getElem?_set_self hl]
  · rw [List.getElem?_set_ne e]
    refine (h.2 i).imp_right fun ⟨j', h1, h2, h3⟩ => ⟨j', ?_, h2, h3⟩
    split
    · next e' =>
      have : j' ≠ j := fun e'' => by rw [e''] at h3; omega
      omega
    · omega

theorem perform_steps {cfg : PrintCfg} (ht : 0 ≤ cfg.tabSize) {h : Nat} (hG : ∀ j ≤ h, Good cfg j) {k : Nat} {as : List Act} (hs : Steps cfg h k as) :
    ∀ {buf : Bytes}, Smudged cfg k buf → ∀ text, (performAll as buf text).2 = text ++ textOf as := by
  induction hs with
  | nil => intro buf _ text; simp [performAll, textOf]
  | out _ ih => intro buf hb text; simp [performAll, Act.perform, textOf, ih hb]
  | @bracket k j c as h1 h2 _ ih =>
    intro buf hb text
    have hg := hG j h2
    have hl : width cfg j < buf.length := by
      rw [hb.1, buf_length]; have := good_width hg; have := hg.2; omega
    have e : (buf.set (width cfg j) c).take (width cfg j + 1) = indentBuffer.take (width cfg j) ++ [c] := by
      rw [List.take_add_one, List.getElem?_set_self hl, List.take_set_of_le (Nat.le_refl _), hb.take ht h1 hg]
      rfl
    have hb' : Smudged cfg (max k (j + 1)) (buf.set (width cfg j) 0x20) := by
      have := hb.clear hg
      by_cases e : k = j
      · subst e; simpa using this
      · rw [if_neg e] at this
        rwa [show max k (j + 1) = max k 0 by omega]
    simp only [performAll, Act.perform, e, List.set_set, ih hb', textOf]
    simp

theorem steps_acts {cfg : PrintCfg} {h : Nat} (hG : ∀ j ≤ h, Good cfg j) {k : Nat} {as : List Act} (hs : Steps cfg h k as) :
    ∀ a ∈ as, ∀ buf text, Smudged cfg 0 buf → Smudged cfg 0 (a.perform buf text).1 := by
  induction hs with
  | nil => simp
  | out _ ih =>
    intro a ha buf text hb
    rcases List.mem_cons.1 ha with rfl | ha
    · exact hb
    · exact ih a ha buf text hb
  | bracket h1 h2 _ ih =>
    intro a ha buf text hb
    simp only [List.mem_cons] at ha
    rcases ha with rfl | rfl | rfl | ha
    · exact hb.put (hG _ h2) _
    · exact hb
    · exact hb.put (hG _ h2) _
    · exact ih a ha buf text hb

theorem perform_smudged {cfg : PrintCfg} : ∀ {as : List Act}, (∀ a ∈ as, ∀ buf text, Smudged cfg 0 buf → Smudged cfg 0 (a.perform buf text).1) →
    ∀ {buf : Bytes} (text : List Write), Smudged cfg 0 buf → Smudged cfg 0 (performAll as buf text).1
  | [], _, _, _, hb => hb
  | a :: as, h, buf, text, hb =>
    perform_smudged (as := as) (fun a ha => h a (List.mem_cons_of_mem _ ha)) _ (h a (List.mem_cons_self) buf text hb)

end JPrint
end Thors
