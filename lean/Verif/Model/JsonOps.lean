import Verif.Model.Parser
import Verif.Model.JsonParser
/-
The JSON parser as an implementation of the virtual functions of `ParserInterface`.
-/
namespace Thors

/-- JsonParser.h:45-73, the overrides. -/
def JsonP.ops : POps JsonP where
  next := JsonP.getNextToken
  getKey := JsonP.getKey
  getInt := JsonP.getInt
  getFlt := JsonP.getFlt
  getBool := JsonP.getBool
  getStr := JsonP.getStr
  isNull := JsonP.isValueNull
  ignoreData := JsonP.ignoreDataValue
  getRaw := JsonP.getRaw

end Thors
