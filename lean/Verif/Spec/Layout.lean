import Verif.Spec.Doc
import Verif.Model.JsonPrinter
/-
Specification: tokens of a text, white space between them, and the widths of indentation.
-/
namespace Thors.Spec
open Thors

/-- A token of a JSON text as written: a structural character, something between quotes, or a number or
literal (non-empty, without white space, quotes and structural characters). -/
def IsToken (t : Bytes) : Prop :=
  t ∈ [b!"{", b!"}", b!"[", b!"]", b!",", b!":"] ∨ (∃ body, t = [0x22] ++ body ++ [0x22]) ∨
    (t ≠ [] ∧ ∀ c ∈ t, c ∉ b!" \t\n\r\"{}[],:")

/-- The text consists of the tokens with nothing but white space before, between and after them. -/
inductive Laid : List Bytes → Bytes → Prop
  | nil {w : Bytes} (h : Ws w) : Laid [] w
  | cons {w x t : Bytes} {xs : List Bytes} (h : Ws w) (ht : Laid xs t) : Laid (x :: xs) (w ++ x ++ t)

/-- The indentation in front of containers nested `k` deep: a newline, `k` tabs and the block indent. -/
def indentation (cfg : PrintCfg) (k : Nat) : Int :=
  k * (if cfg.tabSize = 0 then 4 else cfg.tabSize) + 1 + cfg.blockSize

/-- Nothing is indented, or all indentations down to nesting depth `n` are in the range the printer can
handle (property C25). -/
def FitsIndent (cfg : PrintCfg) (n : Nat) : Prop :=
  cfg.layout = .Stream ∨ ∀ k ≤ n, 0 ≤ indentation cfg k ∧ indentation cfg k ≤ 4003

/-- All indentations of a document in front of which `k` containers are open stay inside the 4004 characters (and the
terminating NUL) of the indentation buffer: a bracket is put into the buffer behind its indentation, a key is written without
touching it. -/
def IndentsInside (cfg : PrintCfg) : Nat → Doc → Prop
  | _, .scalar _ => True
  | k, .arr ts => indentation cfg k < 4004 ∧ elems (k + 1) ts
  | k, .obj ms => indentation cfg k < 4004 ∧ members (k + 1) ms
where
  elems : Nat → List Doc → Prop
  | _, [] => True
  | k, t :: ts => IndentsInside cfg k t ∧ elems k ts
  members : Nat → List (Bytes × Doc) → Prop
  | _, [] => True
  | k, (_, t) :: ms => indentation cfg k ≤ 4005 ∧ IndentsInside cfg k t ∧ members k ms

end Thors.Spec
