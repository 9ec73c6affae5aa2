import Verif.Spec.Layout
import Verif.Model.IndentShared
/-
Specification: exports beside and after other exports.
-/
namespace Thors.Spec
open Thors

/-- An export of a JSON text to a stream: what is exported, and how. -/
structure Export where
  env : Env
  cfg : PrintCfg
  ty : Ty
  v : Val

/-- What it writes when there is nothing else in the program. -/
def Export.alone (e : Export) : Res Bytes := jsonExport e.env e.cfg e.ty e.v

/-- What it does, step by step. -/
def Export.actions (e : Export) : Res (List JPrint.Act) := JPrint.exportActs e.env e.cfg e.ty e.v

/-- All indentations it needs have at least one character and fit. -/
def Export.indents (e : Export) : Prop :=
  ∃ d, docOf e.env e.cfg.marker e.ty e.v = .ok d ∧
    (e.cfg.layout = .Stream ∨ ∀ k ≤ nesting d, 0 < indentation e.cfg k ∧ indentation e.cfg k ≤ 4003)

/-- Threads, each about to do its export. -/
def Started (es : List Export) (p : JPrint.Program) : Prop :=
  p.buf = JPrint.indentBuffer ∧ p.threads.length = es.length ∧
    ∀ (i : Nat) (e : Export) (t : JPrint.Thread), es[i]? = some e → p.threads[i]? = some t → e.actions = .ok t.todo ∧ t.text = []

/-- What the program did before, on one thread: any number of exports, each done, or ended by an exception when it was about to
write something other than a bracket with its indentation. -/
inductive Before : List JPrint.Act → Prop
  | none : Before []
  | done {before a} {e : Export} : Before before → e.indents → e.actions = .ok a → Before (before ++ a)
  | cut {before a b w} {e : Export} : Before before → e.indents → e.actions = .ok (a ++ .out w :: b) → Before (before ++ a)

/-- What the program did before, on one thread: any number of exports with the same settings, each done or ended by an exception,
wherever that may be. -/
inductive BeforeSame (cfg : PrintCfg) : List JPrint.Act → Prop
  | none : BeforeSame cfg []
  | cut {before a b} {e : Export} : BeforeSame cfg before → e.cfg = cfg → e.indents → e.actions = .ok (a ++ b) → BeforeSame cfg (before ++ a)

/-- What an export writes after all that. -/
def Export.after (before : List JPrint.Act) (e : Export) : Res Bytes := do
  let a ← e.actions
  let (buf, _) := JPrint.performAll before JPrint.indentBuffer []
  let (_, text) := JPrint.performAll a buf []
  return bytesOf text

end Thors.Spec
