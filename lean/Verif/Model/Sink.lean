import Verif.Model.Importer
import Verif.Model.BsonPrinter
/-
Model of `/repo/src/Serialize/Exporter.h` and `/repo/src/Serialize/PrinterInterface.h` on a `std::ostream` that may break
down: a full disk, a closed connection.
-/
namespace Thors
open StrIn

/-- A `std::ostream`: what has arrived behind it, how many bytes it will still take before it breaks down, whether it
has failed (`fail()`), whether `badbit` is in its `exceptions()`, and whether output to a stream that has broken down then throws again (the standard leaves it open:
[ostream.sentry] "may call `setstate(failbit)`"; libstdc++ does, libc++ does not). -/
structure OStream where
  data : Bytes
  room : Nat
  fail : Bool := false
  throwing : Bool := false
  again : Bool := true
  deriving DecidableEq, Repr

/-- `std::ostream::write` and the inserters `<<`: nothing arrives on a failed stream; otherwise the bytes up to the breakdown, which
sets `badbit`. The second component is whether that throws `std::ios_base::failure`. -/
def OStream.put (b : Bytes) (s : OStream) : OStream × Bool :=
  if s.fail then (s, s.throwing && s.again)
  else if b.length ≤ s.room then ({ s with data := s.data ++ b, room := s.room - b.length }, false)
  else ({ s with data := s.data ++ b.take s.room, room := 0, fail := true }, s.throwing)

/-- PrinterInterface.h:100-116, 135-146: the calls of a printer one after the other. It does not look at the result of a
call, but an exception ends it. -/
def OStream.putAll : List Write → OStream → OStream × Bool
  | [], s => (s, false)
  | w :: ws, s =>
    match s.put (w.bytesIn streamText) with
    | (s, true) => (s, true)
    | (s, false) => s.putAll ws

/-- What the caller of `stream << exporter` sees: how the call ends, what has arrived, whether the stream has failed. -/
structure Sent where
  fate : Fate Unit
  data : Bytes
  fail : Bool
  deriving DecidableEq, Repr

end Thors
