import Verif.Spec.History
import Verif.Proofs.IndentShared
/-
C76, C77: exports on other threads, and exports before.
-/
namespace Thors
open Spec
namespace JPrint

theorem width_of_indentation {cfg : PrintCfg} {k : Nat} (h : 0 < indentation cfg k ∧ indentation cfg k ≤ 4003) : 0 < width cfg k ∧ width cfg k ≤ 4003 := by
  have e : width cfg k = (indentation cfg k % (2 ^ 64 : Nat)).toNat := rfl
  rw [Int.emod_eq_of_lt (by omega) (by omega)] at e
  omega

theorem indents_steps {e : Export} (h : e.indents) : ∃ a n, e.actions = .ok a ∧ Blocks a ∧ (e.cfg.layout ≠ .Stream → Steps e.cfg n 0 a ∧ ∀ j ≤ n, Good e.cfg j) ∧
    e.alone = .ok (bytesOf (textOf a)) := by
  obtain ⟨d, hd, hf⟩ := h
  obtain ⟨a, h1, h2, h3, h4⟩ := exportActs_doc e.env e.cfg e.ty e.v d hd (hf.imp_right fun h k hk => width_of_indentation (h k hk))
  exact ⟨a, nesting d, h1, h2, fun hl => ⟨h3 hl, fun j hj => (hf.resolve_left hl) j hj⟩, h4⟩
theorem indents_export {e : Export} (h : e.indents) : ∃ a, e.actions = .ok a ∧ Blocks a ∧ e.alone = .ok (bytesOf (textOf a)) := by
  obtain ⟨a, _, h1, h2, _, h4⟩ := indents_steps h
  exact ⟨a, h1, h2, h4⟩

/-- Actions that do not use the buffer. -/
def Private (as : List Act) : Prop := ∃ ws : List Write, as = ws.map .out

theorem Private.append {a b : List Act} : Private a → Private b → Private (a ++ b)
  | ⟨w, h⟩, ⟨w', h'⟩ => ⟨w ++ w', by simp [h, h']⟩

theorem private_indent {cfg : PrintCfg} {k : Nat} {b : Bool} {c : Byte} {as : List Act} (hb : b = false) (h : indentActs cfg k b c = .ok as) : Private as := by
  subst hb
  simp only [indentActs, if_true, Res.ok.injEq] at h
  exact ⟨[.chars [c]], h.symm⟩

theorem private_step {cfg : PrintCfg} (hl : cfg.layout = .Stream) {c : Cmd} {ss ss' : List PState} {as : List Act}
    (h : stepActs cfg c ss = .ok (as, ss')) : Private as := by
  cases ss with
  | nil => simp [stepActs] at h
  | cons st ss =>
    cases c with
    | openMap n | openArray n =>
      simp only [stepActs] at h
      obtain ⟨i, h1, h2⟩ := Res.bind_eq_ok.1 h
      simp only [Res.pure_eq, Res.ok.injEq, Prod.mk.injEq] at h2
      rw [← h2.1]
      exact .append ⟨_, rfl⟩ (private_indent (by simp [hl]) h1)
    | closeMap | closeArray =>
      simp only [stepActs] at h
      split at h
      · simp [throwStd] at h
      · cases ss with
        | nil => simp at h
        | cons st' ss =>
          obtain ⟨i, h1, h2⟩ := Res.bind_eq_ok.1 h
          simp only [Res.pure_eq, Res.ok.injEq, Prod.mk.injEq] at h2
          rw [← h2.1]
          exact private_indent (by simp [hl]) h1
    | _ =>
      simp only [stepActs] at h
      obtain ⟨⟨ws, s⟩, h1, h2⟩ := Res.bind_eq_ok.1 h
      simp only [Res.pure_eq, Res.ok.injEq, Prod.mk.injEq] at h2
      exact ⟨ws, h2.1.symm⟩

theorem private_run {cfg : PrintCfg} (hl : cfg.layout = .Stream) : ∀ {cs : List Cmd} {ss ss' : List PState} {as : List Act},
    runActs cfg cs ss = .ok (as, ss') → Private as
  | [], _, _, _, h => by
    simp only [runActs, Res.ok.injEq, Prod.mk.injEq] at h
    exact ⟨[], h.1.symm⟩
  | c :: cs, ss, ss', as, h => by
    simp only [runActs] at h
    obtain ⟨⟨a, s⟩, h1, h2⟩ := Res.bind_eq_ok.1 h
    obtain ⟨⟨b, s'⟩, h3, h4⟩ := Res.bind_eq_ok.1 h2
    simp only [Res.pure_eq, Res.ok.injEq, Prod.mk.injEq] at h4
    rw [← h4.1]
    exact .append (private_step hl h1) (private_run hl h3)

theorem private_export {e : Export} (hl : e.cfg.layout = .Stream) {a : List Act} (h : e.actions = .ok a) : Private a := by
  obtain ⟨cs, -, h2⟩ := Res.bind_eq_ok.1 h
  obtain ⟨⟨b, s⟩, h3, h4⟩ := Res.bind_eq_ok.1 h2
  simp only [Res.pure_eq, Res.ok.injEq] at h4
  rw [← h4]
  exact private_run hl h3

theorem Private.perform {as : List Act} : Private as → ∀ (b b' : Bytes) (t : List Write), (performAll as b t).2 = (performAll as b' t).2
  | ⟨ws, h⟩ => by
    subst h
    induction ws with
    | nil => intros; rfl
    | cons w ws ih => intro b b' t; exact ih b b' _

theorem Private.tail {a : Act} {as : List Act} (h : Private (a :: as)) : Private as := by
  obtain ⟨ws, h⟩ := h
  cases ws with
  | nil => simp at h
  | cons w ws => exact ⟨ws, (List.cons.inj h).2⟩
theorem Private.head {a : Act} {as : List Act} (h : Private (a :: as)) (b : Bytes) (t : List Write) : (a.perform b t).1 = b := by
  obtain ⟨ws, h⟩ := h
  cases ws with
  | nil => simp at h
  | cons w ws => rw [(List.cons.inj h).1]; rfl

/-- Thread `i` will have written `out` when it is done, and nothing another thread does changes that. -/
def Going (i : Nat) (out : List Write) (p : Program) : Prop :=
  (∀ t, p.threads[i]? = some t → (performAll t.todo p.buf t.text).2 = out) ∧
  ((∀ t, p.threads[i]? = some t → Private t.todo) ∨ ∀ j t, j ≠ i → p.threads[j]? = some t → Private t.todo)

theorem going_step {i : Nat} {out : List Write} {p : Program} (h : Going i out p) (j : Nat) : Going i out (p.step j) := by
  unfold Program.step
  cases hj : p.threads[j]? with
  | none => exact h
  | some t =>
    obtain ⟨todo, text⟩ := t
    cases todo with
    | nil => exact h
    | cons a as =>
      have hlen : j < p.threads.length := by
        rcases Nat.lt_or_ge j p.threads.length with h | h
        · exact h
        · rw [List.getElem?_eq_none h] at hj; cases hj
      obtain ⟨h1, h2⟩ := h
      dsimp only
      by_cases e : j = i
      · subst e
        refine ⟨?_, ?_⟩
        · intro t ht
          dsimp only at ht
          rw [List.getElem?_set_self hlen] at ht
          cases ht
          exact h1 _ hj
        · rcases h2 with h2 | h2
          · left
            intro t ht
            dsimp only at ht
            rw [List.getElem?_set_self hlen] at ht
            cases ht
            exact (h2 _ hj).tail
          · right
            intro k t hk ht
            dsimp only at ht
            rw [List.getElem?_set_ne (by omega)] at ht
            exact h2 k t hk ht
      · refine ⟨?_, ?_⟩
        · intro t ht
          dsimp only at ht
          rw [List.getElem?_set_ne e] at ht
          dsimp only
          rcases h2 with h2 | h2
          · rw [(h2 t ht).perform _ p.buf]
            exact h1 t ht
          · rw [(h2 j _ e hj).head]
            exact h1 t ht
        · rcases h2 with h2 | h2
          · left
            intro t ht
            dsimp only at ht
            rw [List.getElem?_set_ne e] at ht
            exact h2 t ht
          · right
            intro k t hk ht
            dsimp only at ht
            by_cases e2 : j = k
            · subst e2
              rw [List.getElem?_set_self hlen] at ht
              cases ht
              exact (h2 j _ hk hj).tail
            · rw [List.getElem?_set_ne e2] at ht
              exact h2 k t hk ht

theorem going_run {i : Nat} {out : List Write} : ∀ (s : List Nat) {p : Program}, Going i out p → Going i out (p.run s)
  | [], _, h => h
  | j :: s, _, h => going_run s (going_step h j)

end JPrint
namespace Props
open JPrint

/-! ### C76: exports on different threads -/

/-- C76 in part: whatever the schedule, an export that is done has written its text, if no other thread uses an indented layout,
or this one does not. -/
theorem C76_threads_partial (es : List Export) (p : Program) (hp : Started es p) (i : Nat) (e : Export) (hi : es[i]? = some e)
    (he : e.indents) (hl : e.cfg.layout = .Stream ∨ ∀ j e', j ≠ i → es[j]? = some e' → e'.cfg.layout = .Stream)
    (schedule : List Nat) (t : Thread) (ht : (p.run schedule).threads[i]? = some t) (done : t.todo = []) : e.alone = .ok (bytesOf t.text) := by
  obtain ⟨a, ha, hb, htext⟩ := indents_export he
  have hg : Going i (textOf a) p := by
    refine ⟨?_, ?_⟩
    · intro t ht
      obtain ⟨h1, h2⟩ := hp.2.2 i e t hi ht
      rw [ha, Res.ok.injEq] at h1
      rw [← h1, h2, hp.1, perform_blocks hb]
      rfl
    · refine hl.imp ?_ ?_
      · intro hl t ht
        exact private_export hl (hp.2.2 i e t hi ht).1
      · intro hl j t hj ht
        have hlen : j < es.length := by
          rw [← hp.2.1]
          rcases Nat.lt_or_ge j p.threads.length with h | h
          · exact h
          · rw [List.getElem?_eq_none h] at ht; cases ht
        have hej : es[j]? = some es[j] := List.getElem?_eq_getElem hlen
        exact private_export (hl j _ hj hej) (hp.2.2 j _ t hej ht).1
  have := (going_run schedule hg).1 t ht
  rw [done] at this
  rw [htext, ← this]
  rfl

/-- An empty map on one thread, an empty array on another. -/
def twoExports (env : Env) : List Export := [⟨env, {}, .smap .bool, .dict []⟩, ⟨env, {}, .vec .bool, .list []⟩]

theorem two_actions (env : Env) :
    (⟨env, {}, .smap .bool, .dict []⟩ : Export).actions =
      .ok [.out (.chars []), .put 1 0x7B, .copy 2, .put 1 0x20, .put 1 0x7D, .copy 2, .put 1 0x20] ∧
    (⟨env, {}, .vec .bool, .list []⟩ : Export).actions =
      .ok [.out (.chars []), .put 1 0x5B, .copy 2, .put 1 0x20, .put 1 0x5D, .copy 2, .put 1 0x20] := by
  constructor <;> rfl

def mapActs : List Act := [.out (.chars []), .put 1 0x7B, .copy 2, .put 1 0x20, .put 1 0x7D, .copy 2, .put 1 0x20]
def arrActs : List Act := [.out (.chars []), .put 1 0x5B, .copy 2, .put 1 0x20, .put 1 0x5D, .copy 2, .put 1 0x20]

theorem two_run (buf : Bytes) : ((⟨buf, [⟨mapActs, []⟩, ⟨arrActs, []⟩]⟩ : Program).run [0, 0, 1, 1, 0, 0, 0, 0, 0]).threads[0]? =
    some ⟨[], [.chars [], .chars (((buf.set 1 0x7B).set 1 0x5B).take 2),
      .chars (((((buf.set 1 0x7B).set 1 0x5B).set 1 0x20).set 1 0x7D).take 2)]⟩ := by
  simp only [Program.run, List.foldl, Program.step, mapActs, arrActs, Act.perform, List.getElem?_cons_zero, List.getElem?_cons_succ, List.set_cons_zero, List.set_cons_succ, List.nil_append, List.cons_append]

/-- C76 does not hold: the array's bracket gets into the map's text, which is no JSON then. -/
theorem C76_false (env : Env) : ∃ (p : Program) (schedule : List Nat) (t : Thread), Started (twoExports env) p ∧
    (p.run schedule).threads[0]? = some t ∧ t.todo = [] ∧ bytesOf t.text = b!"\n[\n}" ∧
    (twoExports env)[0]?.map Export.alone = some (.ok b!"\n{\n}") := by
  refine ⟨⟨indentBuffer, [⟨mapActs, []⟩, ⟨arrActs, []⟩]⟩, [0, 0, 1, 1, 0, 0, 0, 0, 0], _, ⟨rfl, rfl, ?_⟩, two_run _, rfl, ?_, rfl⟩
  · intro i e t he ht
    match i, he, ht with
    | 0, he, ht =>
      cases he; cases ht
      exact ⟨(two_actions env).1, rfl⟩
    | 1, he, ht =>
      cases he; cases ht
      exact ⟨(two_actions env).2, rfl⟩
    | i + 2, he, ht => simp [twoExports] at he
  · simp only [List.set_set, buf_take 1 _ (by decide : (1 : Nat) ≤ 4003)]
    rfl

/-- An indented array beside a compact one on another thread. -/
example (env : Env) : ∃ (p : Program) (t : Thread), Started [⟨env, {}, .vec .bool, .list []⟩, ⟨env, { layout := .Stream }, .vec .bool, .list []⟩] p ∧
    (p.run [0, 0, 1, 0, 1, 0, 1, 0, 0, 0]).threads[0]? = some t ∧ t.todo = [] ∧
    (⟨env, {}, .vec .bool, .list []⟩ : Export).alone = .ok (bytesOf t.text) := by
  let p : Program := ⟨indentBuffer, [⟨arrActs, []⟩, ⟨[.out (.chars []), .out (.chars b!"["), .out (.chars b!"]")], []⟩]⟩
  have hp : Started [⟨env, {}, .vec .bool, .list []⟩, ⟨env, { layout := .Stream }, .vec .bool, .list []⟩] p := by
    refine ⟨rfl, rfl, ?_⟩
    intro i e t he ht
    match i, he, ht with
    | 0, he, ht =>
      cases he; cases ht
      exact ⟨(two_actions env).2, rfl⟩
    | 1, he, ht =>
      cases he; cases ht
      exact ⟨rfl, rfl⟩
    | i + 2, he, ht => simp at he
  have hr : (p.run [0, 0, 1, 0, 1, 0, 1, 0, 0, 0]).threads[0]? = some ⟨[], [.chars [], .chars ((indentBuffer.set 1 0x5B).take 2),
      .chars ((((indentBuffer.set 1 0x5B).set 1 0x20).set 1 0x5D).take 2)]⟩ := by
    simp only [p, Program.run, List.foldl, Program.step, arrActs, Act.perform, List.getElem?_cons_zero, List.getElem?_cons_succ, List.set_cons_zero,
      List.set_cons_succ, List.nil_append, List.cons_append]
  refine ⟨p, _, hp, hr, rfl, C76_threads_partial _ p hp 0 _ rfl ⟨.arr [], rfl, .inr ?_⟩ (.inr ?_) _ _ hr rfl⟩
  · intro k hk
    replace hk : k ≤ 1 := by simpa [nesting, nesting.elems] using hk
    show 0 < indentation {} k ∧ indentation {} k ≤ 4003
    revert k
    decide
  · intro j e' hj he'
    match j, hj, he' with
    | 1, _, he' => cases he'; rfl
    | j + 2, _, he' => simp at he'

/-! ### C77: exports before -/

theorem before_blocks {before : List Act} (h : Before before) : Blocks before := by
  induction h with
  | none => exact .nil
  | done _ he ha ih =>
    obtain ⟨a, h1, h2, -⟩ := indents_export he
    rw [h1, Res.ok.injEq] at ha
    rw [← ha]
    exact ih.append h2
  | cut _ he ha ih =>
    obtain ⟨a, h1, h2, -⟩ := indents_export he
    rw [h1, Res.ok.injEq] at ha
    exact ih.append (blocks_cut h2 ha)

/-- C77 in part: whatever was exported before, with whatever settings, an export writes its text, if exceptions did not hit the
writing of brackets. -/
theorem C77_history_partial (before : List Act) (hb : Before before) (e : Export) (he : e.indents) : e.after before = e.alone := by
  obtain ⟨a, h1, h2, h3⟩ := indents_export he
  simp only [Export.after, h1, Res.ok_bind, perform_blocks (before_blocks hb), perform_blocks h2, h3, Res.pure_eq, List.nil_append]

theorem before_smudged {cfg : PrintCfg} {before : List Act} (h : BeforeSame cfg before) :
    ∀ a ∈ before, ∀ buf text, Smudged cfg 0 buf → Smudged cfg 0 (a.perform buf text).1 := by
  induction h with
  | none => simp
  | @cut before a b e _ hc he ha ih =>
    intro x hx
    rcases List.mem_append.1 hx with hx | hx
    · exact ih x hx
    · have hx' : x ∈ a ++ b := List.mem_append_left _ hx
      obtain ⟨a', n, h1, -, h3, -⟩ := indents_steps he
      by_cases hl : e.cfg.layout = .Stream
      · intro buf text hs
        obtain ⟨ws, hw⟩ := private_export hl ha
        rw [hw] at hx'
        obtain ⟨w, -, rfl⟩ := List.mem_map.1 hx'
        exact hs
      · rw [h1, Res.ok.injEq] at ha
        subst hc
        obtain ⟨h3, h4⟩ := h3 hl
        exact steps_acts h4 h3 x (by rw [ha]; exact hx')

/-- C77 in part: after exports with the same settings, wherever these were ended by exceptions, an export writes its text. -/
theorem C77_same_settings_partial (before : List Act) (e : Export) (hb : BeforeSame e.cfg before) (he : e.indents) (ht : 0 ≤ e.cfg.tabSize) :
    e.after before = e.alone := by
  obtain ⟨a, n, h1, -, h3, h4⟩ := indents_steps he
  have hs : Smudged e.cfg 0 (performAll before indentBuffer []).1 := perform_smudged (before_smudged hb) [] (smudged_start _ _)
  simp only [Export.after, h1, Res.ok_bind, h4, Res.pure_eq]
  by_cases hl : e.cfg.layout = .Stream
  · obtain ⟨ws, rfl⟩ := private_export hl h1
    rw [Private.perform ⟨ws, rfl⟩ _ indentBuffer, perform_blocks (Blocks.outs ws)]
    rfl
  · obtain ⟨h3, h5⟩ := h3 hl
    rw [perform_steps ht h5 h3 hs]
    rfl

/-- An array in an array. -/
def nested (env : Env) (cfg : PrintCfg) : Export := ⟨env, cfg, .vec (.vec .bool), .list [.list []]⟩

theorem nested_actions (env : Env) :
    (nested env {}).actions = .ok [.out (.chars []), .put 1 0x5B, .copy 2, .put 1 0x20, .out (.chars []), .put 5 0x5B, .copy 6, .put 5 0x20,
      .put 5 0x5D, .copy 6, .put 5 0x20, .put 1 0x5D, .copy 2, .put 1 0x20] ∧
    (nested env { tabSize := 3 }).actions = .ok ([.out (.chars []), .put 1 0x5B, .copy 2, .put 1 0x20, .out (.chars []), .put 4 0x5B] ++
      .copy 5 :: [.put 4 0x20, .put 4 0x5D, .copy 5, .put 4 0x20, .put 1 0x5D, .copy 2, .put 1 0x20]) ∧
    (nested env { blockSize := -1 }).actions = .ok [.out (.chars []), .put 0 0x5B, .copy 1, .put 0 0x20, .out (.chars []), .put 4 0x5B, .copy 5, .put 4 0x20,
      .put 4 0x5D, .copy 5, .put 4 0x20, .put 0 0x5D, .copy 1, .put 0 0x20] := ⟨rfl, rfl, rfl⟩

theorem nested_indents (env : Env) (cfg : PrintCfg) (h : ∀ k ≤ 2, 0 < indentation cfg k ∧ indentation cfg k ≤ 4003) : (nested env cfg).indents := by
  refine ⟨.arr [.arr []], rfl, .inr ?_⟩
  simpa [nested, nesting, nesting.elems] using h

/-- Some history: an array in an array with the usual settings, and one with tabs of three spaces that ended when the inner
array's separator was to be written. Also one that ended when the inner bracket was to be written. -/
example (env : Env) : (∃ before, before.length = 18 ∧ Before before ∧ (nested env {}).after before = (nested env {}).alone) ∧
    ∃ before, before.length = 6 ∧ BeforeSame { tabSize := 3 } before ∧ (nested env { tabSize := 3 }).after before = (nested env { tabSize := 3 }).alone := by
  have h1 : (nested env {}).indents := nested_indents env _ (by decide)
  have h2 : (nested env { tabSize := 3 }).indents := nested_indents env _ (by decide)
  constructor
  · have hb := Before.cut (a := [.out (.chars []), .put 1 0x5B, .copy 2, .put 1 0x20]) (Before.done Before.none h1 (nested_actions env).1) h2 (nested_actions env).2.1
    exact ⟨_, rfl, hb, C77_history_partial _ hb _ h1⟩
  · have hb := BeforeSame.cut (cfg := { tabSize := 3 }) BeforeSame.none rfl h2 (nested_actions env).2.1
    exact ⟨_, rfl, hb, C77_same_settings_partial _ _ hb h2 (show (0 : Int) ≤ 3 by decide)⟩

theorem buf_start : ∃ rest, indentBuffer = 0x0A :: 0x20 :: 0x20 :: 0x20 :: 0x20 :: 0x20 :: rest := ⟨List.replicate 3998 0x20 ++ [0x00], rfl⟩

/-- C77 does not hold: if writing a bracket ends with an exception, the bracket stays in the buffer, and shows up in the
indentation of another export. -/
theorem C77_false_exception (env : Env) : ∃ (before rest : List Act) (n : Nat), (nested env { tabSize := 3 }).actions = .ok (before ++ .copy n :: rest) ∧
    (nested env {}).alone = .ok b!"\n[\n    [\n    ]\n]" ∧ (nested env {}).after before = .ok b!"\n[\n   [[\n   []\n]" := by
  refine ⟨_, _, _, (nested_actions env).2.1, rfl, ?_⟩
  obtain ⟨rest, e⟩ := buf_start
  simp only [Export.after, (nested_actions env).1, Res.ok_bind, e, performAll, Act.perform, List.set_cons_succ, List.set_cons_zero]
  rfl

/-- C77 does not hold: after an export with a block indent of -1, all later exports lack their newlines. -/
theorem C77_false_newline (env : Env) : ∃ before : List Act, (nested env { blockSize := -1 }).actions = .ok before ∧
    (nested env {}).alone = .ok b!"\n[\n    [\n    ]\n]" ∧ (nested env {}).after before = .ok b!" [     [     ] ]" := by
  refine ⟨_, (nested_actions env).2.2, rfl, ?_⟩
  obtain ⟨rest, e⟩ := buf_start
  simp only [Export.after, (nested_actions env).1, Res.ok_bind, e, performAll, Act.perform, List.set_cons_succ, List.set_cons_zero]
  rfl

end Props
end Thors
