import Verif.Model.StringOutput
import Verif.Proofs.SerDoc
import Verif.Proofs.JsonInt
import Verif.Proofs.JsonString
/-
What the JSON printer writes for a document.
-/
namespace Thors
open Spec StrIn JPrint

/-- The text of a scalar. -/
def atomText (ft : FKind → Flt → Bytes) : Atom → Bytes
  | .null => b!"null"
  | .bool b => if b then b!"true" else b!"false"
  | .int _ i => intText i
  | .flt f x => ft f x
  | .str s => jsonString s

/-- Text of a document with white space anywhere between the tokens; keys are written as they are. -/
def PText (ft : FKind → Flt → Bytes) : Doc → Bytes → Prop
  | .scalar a, t => t = atomText ft a
  | .arr [], t => ∃ w, Ws w ∧ t = [0x5B] ++ w ++ [0x5D]
  | .arr (v :: vs), t => ∃ ps, elems (v :: vs) ps ∧ t = [0x5B] ++ commas ps ++ [0x5D]
  | .obj [], t => ∃ w, Ws w ∧ t = [0x7B] ++ w ++ [0x7D]
  | .obj (m :: ms), t => ∃ ps, members (m :: ms) ps ∧ t = [0x7B] ++ commas ps ++ [0x7D]
where
  elems : List Doc → List Bytes → Prop
  | [], ps => ps = []
  | v :: vs, ps => ∃ w1 tv w2 ps', Ws w1 ∧ Ws w2 ∧ PText ft v tv ∧ elems vs ps' ∧ ps = (w1 ++ tv ++ w2) :: ps'
  members : List (Bytes × Doc) → List Bytes → Prop
  | [], ps => ps = []
  | (k, v) :: ms, ps => ∃ w1 w3 tv w4 ps', Ws w1 ∧ Ws w3 ∧ Ws w4 ∧ PText ft v tv ∧
      members ms ps' ∧ ps = (w1 ++ [0x22] ++ k ++ [0x22] ++ [0x3A] ++ w3 ++ tv ++ w4) :: ps'

variable {ft : FKind → Flt → Bytes}

/-- Add white space to the last piece. -/
def addLast : List Bytes → Bytes → List Bytes
  | [], _ => []
  | [p], w => [p ++ w]
  | p :: q :: ps, w => p :: addLast (q :: ps) w

theorem commas_addLast (w : Bytes) : ∀ ps : List Bytes, ps ≠ [] → commas (addLast ps w) = commas ps ++ w
  | [], h => absurd rfl h
  | [p], _ => rfl
  | p :: q :: ps, _ => by
    have ih := commas_addLast w (q :: ps) (by simp)
    cases hq : addLast (q :: ps) w with
    | nil => cases ps <;> simp [addLast] at hq
    | cons r rs =>
      rw [hq] at ih
      simp [addLast, hq, commas, ih]

theorem ws_append {a b : Bytes} (ha : Ws a) (hb : Ws b) : Ws (a ++ b) := by
  intro c hc
  rcases List.mem_append.1 hc with h | h
  · exact ha c h
  · exact hb c h

theorem elems_addLast {w : Bytes} (hw : Ws w) : ∀ (vs : List Doc) (ps : List Bytes), PText.elems ft vs ps → PText.elems ft vs (addLast ps w)
  | [], _, h => by rw [h]; rfl
  | [v], ps, ⟨w1, tv, w2, ps', h1, h2, h3, h4, e⟩ => by
    rw [PText.elems] at h4
    subst h4 e
    exact ⟨w1, tv, w2 ++ w, [], h1, ws_append h2 hw, h3, rfl, by simp [addLast]⟩
  | v :: v' :: vs, ps, ⟨w1, tv, w2, ps', h1, h2, h3, h4, e⟩ => by
    have ih := elems_addLast hw _ _ h4
    obtain ⟨_, _, _, ps'', _, _, _, _, e'⟩ := h4
    subst e e'
    exact ⟨w1, tv, w2, _, h1, h2, h3, ih, rfl⟩

theorem members_addLast {w : Bytes} (hw : Ws w) : ∀ (vs : List (Bytes × Doc)) (ps : List Bytes), PText.members ft vs ps →
    PText.members ft vs (addLast ps w)
  | [], _, h => by rw [h]; rfl
  | [(k, v)], ps, ⟨w1, w3, tv, w2, ps', h1, h13, h2, h3, h4, e⟩ => by
    rw [PText.members] at h4
    subst h4 e
    exact ⟨w1, w3, tv, w2 ++ w, [], h1, h13, ws_append h2 hw, h3, rfl, by simp [addLast]⟩
  | (k, v) :: (k', v') :: vs, ps, ⟨w1, w3, tv, w2, ps', h1, h13, h2, h3, h4, e⟩ => by
    have ih := members_addLast hw _ _ h4
    obtain ⟨_, _, _, _, ps'', _, _, _, _, _, e'⟩ := h4
    subst e e'
    exact ⟨w1, w3, tv, w2, _, h1, h13, h2, h3, ih, rfl⟩

/-- Pieces with commas in front of them, the first one only if `b`. -/
def lead : Bool → List Bytes → Bytes
  | _, [] => []
  | b, p :: ps => (if b then [0x2C] else []) ++ p ++ lead true ps

theorem lead_true : ∀ (p : Bytes) (ps : List Bytes), p ++ lead true ps = commas (p :: ps)
  | p, [] => by simp [lead, commas]
  | p, q :: ps => by simp [lead, commas, ← lead_true q ps]

theorem lead_false (ps : List Bytes) : lead false ps = commas ps := by
  cases ps with
  | nil => rfl
  | cons p ps => simpa [lead] using lead_true p ps

@[simp] theorem bytesIn_append (a b : List Write) : bytesIn ft (a ++ b) = bytesIn ft a ++ bytesIn ft b := by simp [bytesIn]
@[simp] theorem bytesIn_nil : bytesIn ft [] = [] := rfl
@[simp] theorem bytesIn_cons (w : Write) (ws : List Write) : bytesIn ft (w :: ws) = w.bytesIn ft ++ bytesIn ft ws := by simp [bytesIn]

theorem prun_append (cfg : PrintCfg) (a b : List Cmd) : ∀ ss, run cfg (a ++ b) ss = (do
    let (w, ss) ← run cfg a ss
    let (ws, ss) ← run cfg b ss
    return (w ++ ws, ss)) := by
  induction a with
  | nil =>
    intro ss
    simp only [List.nil_append, run, Res.ok_bind, Res.pure_eq]
    cases run cfg b ss <;> simp
  | cons c a ih =>
    intro ss
    simp only [List.cons_append, run, ih]
    cases step cfg c ss with
    | ok r =>
      obtain ⟨w, ss1⟩ := r
      simp only [Res.ok_bind]
      cases run cfg a ss1 with
      | ok r =>
        obtain ⟨w2, ss2⟩ := r
        simp only [Res.ok_bind, Res.pure_eq]
        cases run cfg b ss2 <;> simp
      | _ => rfl
    | _ => rfl

/-- The indentation fits the static buffer at all levels up to `h`. -/
def FitsW (cfg : PrintCfg) (h : Nat) : Prop := cfg.layout = .Stream ∨ ∀ k ≤ h, width cfg k ≤ 4003

theorem FitsW.mono {cfg : PrintCfg} {h h' : Nat} (hf : FitsW cfg h) (hle : h' ≤ h) : FitsW cfg h' :=
  hf.imp_right (fun hw k hk => hw k (Nat.le_trans hk hle))

theorem indent_ws (n : Nat) (hn : n ≤ 4004) : Ws (indentBuffer.take n) := by
  intro c hc
  have hc' : c ∈ (0x0A :: List.replicate 4003 (0x20 : UInt8)).take n := by
    have : indentBuffer = (0x0A :: List.replicate 4003 (0x20 : UInt8)) ++ [0x00] := rfl
    rw [this, List.take_append_of_le_length (by simp only [List.length_cons, List.length_replicate]; omega)] at hc
    exact hc
  have := List.mem_of_mem_take hc'
  rw [List.mem_cons, List.mem_replicate] at this
  rcases this with rfl | ⟨-, rfl⟩ <;> decide

theorem indentSuffix_ok {cfg : PrintCfg} {h k : Nat} (hf : FitsW cfg h) (hk : k ≤ h) (b : Bool) (hb : cfg.layout = .Stream → b = false) (c : Byte) :
    ∃ w, Ws w ∧ indentSuffix cfg k b c = .ok [.chars (w ++ [c])] := by
  cases b with
  | false => exact ⟨[], by intro c hc; simp at hc, rfl⟩
  | true =>
    have hw : width cfg k ≤ 4003 := by
      rcases hf with h1 | h1
      · exact absurd (hb h1) (by simp)
      · exact h1 k hk
    refine ⟨indentBuffer.take (width cfg k), indent_ws _ (by omega), ?_⟩
    simp [indentSuffix, hw]

theorem indentPlain_ok {cfg : PrintCfg} {h k : Nat} (hf : FitsW cfg h) (hk : k ≤ h) (b : Bool) (hb : cfg.layout = .Stream → b = false) :
    ∃ w ws, Ws w ∧ indentPlain cfg k b = .ok ws ∧ bytesIn ft ws = w := by
  cases b with
  | false => exact ⟨[], [], by intro c hc; simp at hc, rfl, rfl⟩
  | true =>
    have hw : width cfg k ≤ 4003 := by
      rcases hf with h1 | h1
      · exact absurd (hb h1) (by simp)
      · exact h1 k hk
    refine ⟨indentBuffer.take (width cfg k), [.chars (indentBuffer.take (width cfg k))], indent_ws _ (by omega), ?_, ?_⟩
    · unfold indentPlain
      rw [if_neg (by simp)]
      simp only
      rw [if_pos (by omega)]
    · simp only [bytesIn_cons, bytesIn_nil, Write.bytesIn, List.append_nil]

/-- The separator in front of a value. -/
def sepOf (st : PState) : Bytes := if st.f1 = .Map then [0x3A] else if st.f0 ≠ 0 then [0x2C] else []

theorem separator_value (st : PState) : bytesIn ft (separator st false false) = sepOf st := by
  unfold separator sepOf
  by_cases h1 : st.f1 = .Map
  · rw [if_pos ⟨rfl, h1⟩, if_pos h1]; rfl
  · rw [if_neg (fun h => h1 h.2), if_neg h1]
    by_cases h2 : st.f0 ≠ 0
    · rw [if_pos h2, if_pos h2]; rfl
    · rw [if_neg h2, if_neg h2]; rfl

theorem value_ok (cfg : PrintCfg) (text : List Write) (st : PState) (ss : List PState) :
    ∃ ws st' w, value cfg text (st :: ss) = .ok (ws, st' :: ss) ∧ st'.f0 = st.f0 + 1 ∧ st'.f1 = st.f1 ∧ Ws w ∧
      bytesIn ft ws = sepOf st ++ w ++ bytesIn ft text := by
  have hsp : Ws [0x20] := by intro c hc; simp at hc; simp [hc]
  have hn : Ws [] := by intro c hc; simp at hc
  unfold value
  refine ⟨_, _, if (cfg.layout ≠ .Stream ∧ ((st.f1 = .Array ∧ st.f0 ≠ 0) ∨ st.f1 = .Map)) then [0x20] else [], rfl, rfl, rfl, ?_, ?_⟩
  · split
    · exact hsp
    · exact hn
  · rw [bytesIn_append]
    congr 1
    by_cases hs : cfg.layout ≠ .Stream ∧ ((st.f1 = .Array ∧ st.f0 ≠ 0) ∨ st.f1 = .Map)
    · rw [if_pos hs]
      simp only [decide_eq_true hs]
      unfold separator sepOf
      by_cases h1 : st.f1 = .Map
      · rw [if_pos ⟨rfl, h1⟩, if_pos h1]; rfl
      · rw [if_neg (fun h => h1 h.2), if_neg h1]
        have h2 : st.f0 ≠ 0 := by
          rcases hs.2 with h | h
          · exact h.2
          · exact absurd h h1
        rw [if_pos h2, if_pos h2]; rfl
    · rw [if_neg hs]
      simp only [decide_eq_false hs, List.append_nil]
      exact separator_value st

theorem escapeWrites_bytes (s : Bytes) : bytesIn ft ((escapeWrites s).map .chars) = escapeString s := by
  unfold bytesIn escapeString
  rw [List.map_map]
  congr 1
  generalize escapeWrites s = l
  induction l with
  | nil => rfl
  | cons a as ih => simp only [List.map_cons, ih, Function.comp, Write.bytesIn]

theorem step_atom (cfg : PrintCfg) (a : Atom) (st : PState) (ss : List PState) :
    ∃ ws st' w, step cfg (atomCmd a) (st :: ss) = .ok (ws, st' :: ss) ∧ st'.f0 = st.f0 + 1 ∧ st'.f1 = st.f1 ∧ Ws w ∧
      bytesIn ft ws = sepOf st ++ w ++ atomText ft a := by
  cases a with
  | null => exact value_ok cfg [.chars b!"null"] st ss
  | bool b =>
    have := value_ok (ft := ft) cfg [.value (if b then b!"true" else b!"false")] st ss
    rw [bytesIn_cons, bytesIn_nil, Write.bytesIn, List.append_nil] at this
    exact this
  | int k i =>
    have := value_ok (ft := ft) cfg [.value (intText i)] st ss
    rw [bytesIn_cons, bytesIn_nil, Write.bytesIn, List.append_nil] at this
    exact this
  | flt f x =>
    have := value_ok (ft := ft) cfg [.flt f x] st ss
    rw [bytesIn_cons, bytesIn_nil, Write.bytesIn, List.append_nil] at this
    exact this
  | str s =>
    have := value_ok (ft := ft) cfg ([.chars b!"\""] ++ (escapeWrites s).map .chars ++ [.chars b!"\""]) st ss
    have e : bytesIn ft ([.chars b!"\""] ++ (escapeWrites s).map .chars ++ [.chars b!"\""]) = jsonString s := by
      rw [bytesIn_append, bytesIn_append, escapeWrites_bytes]
      simp [Write.bytesIn, jsonString]
    rw [e] at this
    exact this

mutual
theorem run_doc (ft : FKind → Flt → Bytes) (cfg : PrintCfg) : ∀ (d : Doc) (st : PState) (ss : List PState), FitsW cfg (ss.length + nesting d) →
    ∃ ws st' w tv, run cfg (cmdsOf d) (st :: ss) = .ok (ws, st' :: ss) ∧ st'.f0 = st.f0 + 1 ∧ st'.f1 = st.f1 ∧ Ws w ∧ PText ft d tv ∧
      bytesIn ft ws = sepOf st ++ w ++ tv
  | .scalar a, st, ss, _ => by
    obtain ⟨ws, st', w, h1, h2, h3, h4, h5⟩ := step_atom cfg a st ss
    exact ⟨ws, st', w, atomText ft a, by simp [cmdsOf, run, h1], h2, h3, h4, rfl, h5⟩
  | .arr ts, st, ss, hf => by
    rw [nesting] at hf
    have hs : cfg.layout = .Stream → decide (cfg.layout ≠ .Stream) = false := by intro h; simp [h]
    obtain ⟨w, hw, e1⟩ := indentSuffix_ok hf (k := ss.length) (by omega) (decide (cfg.layout ≠ .Stream)) hs 0x5B
    obtain ⟨ws2, st2, ps, e2, h2, hps, hb2⟩ := run_elems ft cfg ts ⟨0, .Array, false⟩ (st :: ss) rfl (hf.mono (by simp; omega))
    obtain ⟨w3, hw3, e3⟩ := indentSuffix_ok hf (k := ss.length) (by omega) (decide (cfg.layout ≠ .Stream ∧ st2.f2 = false))
      (by intro h; simp [h]) 0x5D
    refine ⟨(separator st false false ++ [.chars (w ++ [0x5B])]) ++ (ws2 ++ [.chars (w3 ++ [0x5D])]), { st with f0 := st.f0 + 1 },
      w, [0x5B] ++ (lead false ps ++ w3) ++ [0x5D], ?_, ?_, ?_, hw, ?_, ?_⟩
    · simp only [cmdsOf, List.cons_append, run, step, e1, Res.ok_bind, Res.pure_eq, prun_append, e2, h2, ne_eq, not_true_eq_false, if_false, e3]
      simp
    · rfl
    · rfl
    · cases ts with
      | nil =>
        rw [PText.elems] at hps
        subst hps
        exact ⟨w3, hw3, by simp [lead]⟩
      | cons v vs =>
        have hne : ps ≠ [] := by obtain ⟨_, _, _, _, _, _, _, _, e⟩ := hps; simp [e]
        exact ⟨addLast ps w3, elems_addLast hw3 _ _ hps, by rw [commas_addLast _ _ hne, lead_false]⟩
    · simp [separator_value, hb2, Write.bytesIn]
  | .obj ms, st, ss, hf => by
    rw [nesting] at hf
    have hs : cfg.layout = .Stream → decide (cfg.layout ≠ .Stream) = false := by intro h; simp [h]
    obtain ⟨w, hw, e1⟩ := indentSuffix_ok hf (k := ss.length) (by omega) (decide (cfg.layout ≠ .Stream)) hs 0x7B
    obtain ⟨ws2, st2, ps, e2, h2, hps, hb2⟩ := run_members ft cfg ms ⟨0, .Map, false⟩ (st :: ss) rfl (hf.mono (by simp; omega))
    obtain ⟨w3, hw3, e3⟩ := indentSuffix_ok hf (k := ss.length) (by omega) (decide (cfg.layout ≠ .Stream)) hs 0x7D
    refine ⟨(separator st false false ++ [.chars (w ++ [0x7B])]) ++ (ws2 ++ [.chars (w3 ++ [0x7D])]), { st with f0 := st.f0 + 1 },
      w, [0x7B] ++ (lead false ps ++ w3) ++ [0x7D], ?_, ?_, ?_, hw, ?_, ?_⟩
    · simp only [cmdsOf, List.cons_append, run, step, e1, Res.ok_bind, Res.pure_eq, prun_append, e2, h2, ne_eq, not_true_eq_false, if_false, e3]
      simp
    · rfl
    · rfl
    · cases ms with
      | nil =>
        rw [PText.members] at hps
        subst hps
        exact ⟨w3, hw3, by simp [lead]⟩
      | cons v vs =>
        have hne : ps ≠ [] := by obtain ⟨k, v⟩ := v; obtain ⟨_, _, _, _, _, _, _, _, _, _, e⟩ := hps; simp [e]
        exact ⟨addLast ps w3, members_addLast hw3 _ _ hps, by rw [commas_addLast _ _ hne, lead_false]⟩
    · simp [separator_value, hb2, Write.bytesIn]
theorem run_elems (ft : FKind → Flt → Bytes) (cfg : PrintCfg) : ∀ (ts : List Doc) (st : PState) (ss : List PState), st.f1 = .Array → FitsW cfg (ss.length + nesting.elems ts) →
    ∃ ws st' ps, run cfg (cmdsOf.elems ts) (st :: ss) = .ok (ws, st' :: ss) ∧ st'.f1 = .Array ∧ PText.elems ft ts ps ∧
      bytesIn ft ws = lead (decide (st.f0 ≠ 0)) ps
  | [], st, ss, ha, _ => ⟨[], st, [], rfl, ha, rfl, rfl⟩
  | t :: ts, st, ss, ha, hf => by
    rw [nesting.elems] at hf
    obtain ⟨ws, st1, w, tv, e1, h0, h1, hw, ht, hb⟩ := run_doc ft cfg t st ss (hf.mono (by omega))
    obtain ⟨ws2, st2, ps, e2, h2, hps, hb2⟩ := run_elems ft cfg ts st1 ss (h1.trans ha) (hf.mono (by omega))
    refine ⟨ws ++ ws2, st2, (w ++ tv) :: ps, ?_, h2, ⟨w, tv, [], ps, hw, by intro c hc; simp at hc, ht, hps, by simp⟩, ?_⟩
    · simp [cmdsOf.elems, prun_append, e1, e2]
    · rw [bytesIn_append, hb, hb2, lead, sepOf, h0, ha]
      simp
theorem run_members (ft : FKind → Flt → Bytes) (cfg : PrintCfg) : ∀ (ms : List (Bytes × Doc)) (st : PState) (ss : List PState), st.f1 = .Map → FitsW cfg (ss.length + nesting.members ms) →
    ∃ ws st' ps, run cfg (cmdsOf.members ms) (st :: ss) = .ok (ws, st' :: ss) ∧ st'.f1 = .Map ∧ PText.members ft ms ps ∧
      bytesIn ft ws = lead (decide (st.f0 ≠ 0)) ps
  | [], st, ss, ha, _ => ⟨[], st, [], rfl, ha, rfl, rfl⟩
  | (k, t) :: ms, st, ss, ha, hf => by
    rw [nesting.members] at hf
    have hs : cfg.layout = .Stream → decide (cfg.layout ≠ .Stream) = false := by intro h; simp [h]
    obtain ⟨w0, i0, hw0, e0, hb0⟩ := indentPlain_ok hf (k := ss.length) (by omega) (decide (cfg.layout ≠ .Stream)) hs
    obtain ⟨ws, st1, w, tv, e1, h0, h1, hw, ht, hb⟩ := run_doc ft cfg t st ss (hf.mono (by omega))
    obtain ⟨ws2, st2, ps, e2, h2, hps, hb2⟩ := run_members ft cfg ms st1 ss (h1.trans ha) (hf.mono (by omega))
    refine ⟨separator st true false ++ i0 ++ [.chars b!"\"", .chars k, .chars b!"\""] ++ (ws ++ ws2), st2,
      (w0 ++ [0x22] ++ k ++ [0x22] ++ [0x3A] ++ w ++ tv ++ []) :: ps, ?_, h2,
      ⟨w0, w, tv, [], ps, hw0, hw, by intro c hc; simp at hc, ht, hps, rfl⟩, ?_⟩
    · simp only [cmdsOf.members, List.cons_append, run, step, ha, ne_eq, not_true_eq_false, if_false, e0, Res.ok_bind, Res.pure_eq,
        prun_append, e1, e2]
    · rw [bytesIn_append, bytesIn_append, bytesIn_append, bytesIn_append, hb, hb2, hb0, lead, sepOf, h0, if_pos ha]
      have : bytesIn ft (separator st true false) = if st.f0 ≠ 0 then [0x2C] else [] := by
        unfold separator
        simp only [Bool.true_eq_false, false_and, if_false]
        split <;> rfl
      rw [this]
      simp [Write.bytesIn]
end

end Thors
