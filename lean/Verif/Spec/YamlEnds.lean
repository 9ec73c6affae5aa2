import Verif.Model.Yaml
/-
Specification: event sequences in which collections are closed in the order in which they were opened.
-/
namespace Thors.Spec
open Thors

/-- The events close collections properly: an end of a mapping or sequence closes the innermost open one, which is of that kind. `st`: the open
collections, the innermost first, `true` for a mapping. The sequence may stop anywhere (the text is not YAML from there on), and nothing
else is asked of it: aliases, keys that are collections, mappings with a key but no value and several documents are allowed. -/
def Closes : List Bool → List YEv → Prop
  | _, [] => True
  | st, .mapStart :: es => Closes (true :: st) es
  | st, .seqStart :: es => Closes (false :: st) es
  | true :: st, .mapEnd :: es => Closes st es
  | false :: st, .seqEnd :: es => Closes st es
  | _, .mapEnd :: _ => False
  | _, .seqEnd :: _ => False
  | st, _ :: es => Closes st es

end Thors.Spec
