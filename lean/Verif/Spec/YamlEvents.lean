import Verif.Model.Unwind
/-
The order of events that an emitter of YAML takes (YAML 1.2, chapter 3; `yaml_emitter_emit` of libyaml), as an automaton: what is awaited, the nearest first.
-/
namespace Thors.Spec
open Thors

/-- What an emitter waits for: the stream, documents or the end of the stream, a node, the end of the document, elements or the end of a sequence, keys or the end
of a mapping. -/
inductive Await
  | stream | docs | node | docEnd | items | keys
  deriving DecidableEq, Repr

/-- A node begins or is there: `rest` is what is awaited after it. -/
def nodeEvent (e : YEv) (rest : List Await) : Option (List Await) :=
  match e with
  | .scalar _ => some rest
  | .seqStart => some (.items :: rest)
  | .mapStart => some (.keys :: rest)
  | _ => none

/-- One event. -/
def expect1 : List Await → YEv → Option (List Await)
  | .stream :: r, .streamStart => some (.docs :: r)
  | .docs :: r, .docStart => some (.node :: .docEnd :: .docs :: r)
  | .docs :: r, .streamEnd => some r
  | .docEnd :: r, .docEnd => some r
  | .items :: r, .seqEnd => some r
  | .keys :: r, .mapEnd => some r
  | .node :: r, e => nodeEvent e r
  | .items :: r, e => nodeEvent e (.items :: r)
  | .keys :: r, e => nodeEvent e (.node :: .keys :: r)
  | _, _ => none

/-- All events of a history. -/
def expects (h : List YEv) : Option (List Await) := h.foldl (fun a e => a.bind (expect1 · e)) (some [.stream])

/-- A beginning of a proper sequence of events. -/
def Legal (h : List YEv) : Prop := expects h ≠ none

/-- An emitter whose output is taken, by its answers (`true`: refused) to the histories of events: proper histories are not refused. An improper one may be refused
later than at the first wrong event (libyaml looks ahead up to three events), but at the latest when the document ends. -/
structure Emitter (refuse : List YEv → Bool) : Prop where
  takes : ∀ h, Legal h → refuse h = false
  rejects : ∀ h, ¬ Legal (h ++ [.docEnd]) → refuse (h ++ [.docEnd]) = true

/-- There are such emitters: one that refuses at once. -/
theorem emitter_prompt : Emitter (fun h => decide (expects h = none)) where
  takes h hl := decide_eq_false hl
  rejects h hn := decide_eq_true (Decidable.not_not.1 hn)

/-- And one that refuses only at the end of the document. -/
theorem emitter_late : Emitter (fun h => decide (h.getLast? = some .docEnd ∧ expects h = none)) where
  takes h hl := decide_eq_false fun x => hl x.2
  rejects h hn := decide_eq_true ⟨by simp, Decidable.not_not.1 hn⟩

/-- The text that a call hands to libyaml. -/
def yamlText : Cmd → Option Bytes
  | .addKey k => some k
  | .addInt _ n => some (intText n)
  | .addFlt f x => some (general6 f x)
  | .addBool b => some (if b then b!"true" else b!"false")
  | .addStr t => some t
  | .addNull => some b!"null"
  | _ => none

/-- Does libyaml take the text of the call? -/
def textTaken (accepts : Bytes → Bool) (c : Cmd) : Bool :=
  match yamlText c with
  | some t => accepts t
  | none => true

/-- A traversal as far as the texts are taken. -/
def cutAtText (accepts : Bytes → Bool) (t : Traversal) : Traversal :=
  if t.cmds.all (textTaken accepts) then t else ⟨t.cmds.takeWhile (textTaken accepts), .threw .std⟩

/-- A value is awaited after these calls: there are none yet, or the last one was a key. -/
def AwaitsValue (cs : List Cmd) : Prop := cs = [] ∨ ∃ k, cs.getLast? = some (.addKey k)

end Thors.Spec
