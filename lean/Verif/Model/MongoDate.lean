import Verif.Model.Mongo
/-
The text of a `UTCDateTime` on a stream (`/repo/src/Serialize/MongoUtility.h:372-379, 395-399`).
-/
namespace Thors
open StrIn
namespace UTCDateTime

/-- The abbreviated names of the days in the "C" locale (`%a`), Sunday first as in `tm_wday`. -/
def dayName : Fin 7 → Bytes
  | 0 => b!"Sun"
  | 1 => b!"Mon"
  | 2 => b!"Tue"
  | 3 => b!"Wed"
  | 4 => b!"Thu"
  | 5 => b!"Fri"
  | 6 => b!"Sat"

/-- `std::localtime` and `std::put_time` with `%c %Z`. In the "C" locale `%c` is `%a %b %e %H:%M:%S %Y`: the name of the day, a space
and the rest of the date. The zone and the calendar are not modelled: `zone` gives for each number of seconds the day of the week and the text
behind its name and the space, or `none`: `std::localtime` returns a null pointer (a year that does not fit), which the code
dereferences. -/
abbrev Zone := Int → Option (Fin 7 × Bytes)

/-- MongoUtility.h:372-379 `operator<<(std::ostream&, UTCDateTime const&)`: the milliseconds are dropped (division of integers in
C++ rounds towards zero). -/
def put (zone : Zone) (d : Int) : Res Bytes :=
  match zone (d.tdiv 1000) with
  | none => .ub
  | some (w, rest) => .ok (dayName w ++ 0x20 :: rest)

/-- `stream >> std::hex >> v` for an `std::int64_t` (from the contract of `std::num_get`, libstdc++): white space is skipped, then an
optional sign, an optional `0x` and the longest run of hexadecimal digits are taken. The new value (0 without digits, the nearest one if
it does not fit), and whether the stream is still good. -/
def extractHex64 (s : Bytes) : Int × Bool :=
  let s := s.dropWhile isSpace
  let neg := s.head? = some 0x2D
  let s := if neg ∨ s.head? = some 0x2B then s.drop 1 else s
  let s := if s.head? = some 0x30 ∧ (s[1]? = some 0x78 ∨ s[1]? = some 0x58) then s.drop 2 else s
  let ds := s.takeWhile isHexDigit
  let n := ds.foldl (fun a d => a * 16 + oidDigit d) 0
  if ds = [] then (0, false)
  else if neg then (if n ≤ 2 ^ 63 then (-n, true) else (-2 ^ 63, false))
  else if n < 2 ^ 63 then (n, true) else (2 ^ 63 - 1, false)

/-- MongoUtility.h:395-399 `operator>>(std::istream&, UTCDateTime&)`. -/
def get (s : Bytes) : Int × Bool := extractHex64 s

end UTCDateTime
end Thors
