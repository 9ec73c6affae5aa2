import Verif.Model.Format
import Verif.Spec.Number
/-
The format specification `{:<Type>?<Stream>?<TabSize>?[.<blockIndent>]}` of `TA::Ser`, as the comment in Format.h documents it.
-/
namespace Thors.Spec.Format
open Thors

/-- `J`, `B`, `Y` or nothing (JSON). -/
inductive TypeText : Bytes → FForm → Prop
  | none : TypeText [] .Json
  | json : TypeText b!"J" .Json
  | bson : TypeText b!"B" .Bson
  | yaml : TypeText b!"Y" .Yaml

/-- `-`, `*` or nothing (no white space). -/
inductive LayoutText : Bytes → Layout → Prop
  | none : LayoutText [] .Stream
  | stream : LayoutText b!"-" .Stream
  | pretty : LayoutText b!"*" .Config

/-- A number, or nothing (0). -/
inductive NumText : Bytes → Nat → Prop
  | none : NumText [] 0
  | some {t : Bytes} {n : Nat} (h : Dec t n) : NumText t n

/-- `.` and a number, or nothing (0). -/
inductive BlockText : Bytes → Nat → Prop
  | none : BlockText [] 0
  | some {t : Bytes} {n : Nat} (h : NumText t n) : BlockText (b!"." ++ t) n

/-- A format specification and what it asks for: the format, the layout, the size of an indentation and the indentation of the whole. -/
inductive SpecText : Bytes → FForm → Layout → Nat → Nat → Prop
  | mk {a b c d : Bytes} {f : FForm} {l : Layout} {tab block : Nat} (ha : TypeText a f) (hb : LayoutText b l) (hc : NumText c tab)
      (hd : BlockText d block) : SpecText (a ++ b ++ c ++ d) f l tab block

end Thors.Spec.Format
