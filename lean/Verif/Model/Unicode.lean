import Verif.Model.Basic
/-
Model of `/repo/src/Serialize/UnicodeIterator.h`: the two decoders of JSON string escapes.
-/
namespace Thors

/-- UnicodeIterator.h:32-50 `convertHexToDec`. -/
def convertHexToDec (x : Byte) : Res Nat :=
  if 0x30 ≤ x ∧ x ≤ 0x39 then .ok (x.toNat - 0x30)
  else if 0x41 ≤ x ∧ x ≤ 0x46 then .ok (10 + (x.toNat - 0x41))
  else if 0x61 ≤ x ∧ x ≤ 0x66 then .ok (10 + (x.toNat - 0x61))
  else throwStd

/-- Narrowing of an integer to `char` in `cont.push_back(...)`. -/
def nb (n : Nat) : Byte := UInt8.ofNat n

/-- `*iter` on the buffer of a `std::string` of length `n`: position `n` holds the terminating NUL,
anything beyond is outside the buffer. -/
def rdBuf (buf : Bytes) (i : Nat) : Res Byte :=
  if i < buf.length then .ok (buf.getD i 0)
  else if i = buf.length then .ok 0
  else .ub

/-- UnicodeIterator.h:184-196, the fields of `UnicodeWrapperIterator`; `iter` is an index into the
buffer the iterator runs over. -/
structure UW where
  iter  : Nat
  cont  : Bytes
  index : Nat
  next  : Byte
  deriving DecidableEq, Repr

namespace UW

/-- UnicodeIterator.h:197-207, the constructor for the start position (`end == false`). The end
iterator (`end == true`) has `iter = length + 1`. -/
def start (buf : Bytes) : Res UW := do
  let c ← rdBuf buf 0
  return { iter := 1, cont := [], index := 0, next := c }

/-- UnicodeIterator.h:357-370 `getUnicodeHex`: four turns of the loop from position `iter` with the
accumulated value. -/
def hexLoop (buf : Bytes) : Nat → Nat → Nat → Res (Nat × Nat)
  | 0, iter, acc => .ok (acc, iter)
  | n + 1, iter, acc => do
    let x ← rdBuf buf iter
    let d ← convertHexToDec x
    hexLoop buf n (iter + 1) ((acc <<< 4) + d)

def getUnicodeHex (buf : Bytes) (iter : Nat) : Res (Nat × Nat) := hexLoop buf 4 iter 0

/-- UnicodeIterator.h:316-356 `decodeSurrogatePairs`: the bytes pushed on `cont` and the new `iter`. -/
def decodeSurrogatePairs (buf : Bytes) (iter : Nat) (unicodeValue : Nat) : Res (Bytes × Nat) := do
  let c1 ← rdBuf buf iter
  if c1 ≠ 0x5C then throwStd else
  let c2 ← rdBuf buf (iter + 1)
  if c2 ≠ 0x75 then throwStd else
  let (lo, iter) ← getUnicodeHex buf (iter + 2)
  let v := (unicodeValue <<< 16) + lo
  if v &&& 0xFC00FC00 ≠ 0xD800DC00 then throwStd else
  let u := 0x00010000 ||| ((v &&& 0x03FF0000) >>> 6) ||| (v &&& 0x000003FF)
  return ([nb (0xF0 ||| ((u >>> 18) &&& 0x0F)),
           nb (0x80 ||| ((u >>> 12) &&& 0x3F)),
           nb (0x80 ||| ((u >>> 6) &&& 0x3F)),
           nb (0x80 ||| (u &&& 0x3F))], iter)

/-- UnicodeIterator.h:285-315 `decodeUnicode`: the bytes pushed on `cont` and the new `iter`. (A value
above 0xFFFF cannot come out of four hex digits; then nothing would be pushed.) -/
def decodeUnicode (buf : Bytes) (iter : Nat) : Res (Bytes × Nat) := do
  let (u, iter) ← getUnicodeHex buf iter
  if u ≤ 0x7F then
    return ([nb (u &&& 0x7F)], iter)
  else if u ≤ 0x7FF then
    return ([nb (0xC0 ||| ((u >>> 6) &&& 0x1F)), nb (0x80 ||| (u &&& 0x3F))], iter)
  else if u ≤ 0xFFFF then
    if u &&& 0xFC00 ≠ 0xD800 then
      return ([nb (0xE0 ||| ((u >>> 12) &&& 0x0F)), nb (0x80 ||| ((u >>> 6) &&& 0x3F)),
               nb (0x80 ||| (u &&& 0x3F))], iter)
    else decodeSurrogatePairs buf iter u
  else return ([], iter)

/-- UnicodeIterator.h:245-284 `checkBuffer`. -/
def checkBuffer (buf : Bytes) (w : UW) : Res (Byte × UW) :=
  if w.next < 0x20 then throwStd
  else if w.next ≠ 0x5C then .ok (w.next, w)
  else do
    let r ← rdBuf buf w.iter
    let w1 := { w with iter := w.iter + 1 }
    if r = 0x22 then return (0x22, w1)
    else if r = 0x5C then return (0x5C, w1)
    else if r = 0x2F then return (0x2F, w1)
    else if r = 0x62 then return (0x08, w1)
    else if r = 0x66 then return (0x0C, w1)
    else if r = 0x6E then return (0x0A, w1)
    else if r = 0x72 then return (0x0D, w1)
    else if r = 0x74 then return (0x09, w1)
    else if r = 0x75 then
      let (cont, iter) ← decodeUnicode buf (w.iter + 1)
      match cont with
      | [] => .ub                                  -- `cont[0]` of an empty vector
      | c :: _ => return (c, { w with iter := iter, cont := cont })
    else throwStd

/-- UnicodeIterator.h:236-243 `operator*`. -/
def deref (buf : Bytes) (w : UW) : Res (Byte × UW) :=
  if w.cont.length = 0 then checkBuffer buf w
  else if w.index < w.cont.length then .ok (w.cont.getD w.index 0, w) else .ub

/-- UnicodeIterator.h:216-235 `operator++`. -/
def incr (buf : Bytes) (w : UW) : Res UW :=
  if w.cont.length = 0 then do
    let c ← rdBuf buf w.iter
    return { w with next := c, iter := w.iter + 1 }
  else if w.index + 1 = w.cont.length then do
    let c ← rdBuf buf w.iter
    return { next := c, iter := w.iter + 1, cont := [], index := 0 }
  else .ok { w with index := w.index + 1 }

/-- The `std::copy` of JsonManualLexer.cpp:201-203 of the buffer onto itself. `out` is the number of
bytes already written (to the front of the same buffer). `fuel` bounds the number of turns; running
out of it is reported as `ub` so that "never `ub`" includes termination. The second component of the
result is the distance used in line 204. -/
def copyLoop : Nat → Bytes → UW → Nat → Res (Bytes × Nat)
  | 0, _, _, _ => .ub
  | fuel + 1, buf, w, out =>
    if w.iter = buf.length + 1 then .ok (buf, out)
    else do
      let (c, w) ← deref buf w
      if out < buf.length then
        let buf := buf.set out c
        let w ← incr buf w
        copyLoop fuel buf w (out + 1)
      else .ub

end UW

/-- JsonManualLexer.cpp:201-204: decode the escapes of `value` in place and cut it to the new
length. -/
def unescapeInPlace (value : Bytes) : Res Bytes := do
  let w ← UW.start value
  let (buf, n) ← UW.copyLoop (value.length + 1) value w 0
  return buf.take n

/-- Not code: the same `std::copy` with the destination in separate storage, so that the source is never
overwritten. Used to state that decoding in place makes no difference. -/
def UW.copyFresh : Nat → Bytes → UW → Bytes → Res Bytes
  | 0, _, _, _ => .ub
  | fuel + 1, src, w, out =>
    if w.iter = src.length + 1 then .ok out
    else do
      let (c, w) ← UW.deref src w
      let w ← UW.incr src w
      UW.copyFresh fuel src w (out ++ [c])

/-- Not code: decode `value` into fresh storage. -/
def unescapeFresh (value : Bytes) : Res Bytes := do
  let w ← UW.start value
  UW.copyFresh (value.length + 1) value w []

/-- UnicodeIterator.h:53-69, the fields of `UnicodePushBackIterator`. `unicodeValue` is
uninitialised until the first `\u`; the model starts it at 0, it is never read before line 166 sets
it. -/
structure UPB where
  cont : Bytes
  lastWasSlash : Bool
  unicodeCount : Nat
  unicodeValue : Nat            -- std::uint32_t
  deriving DecidableEq, Repr

namespace UPB

def init : UPB := { cont := [], lastWasSlash := false, unicodeCount := 0, unicodeValue := 0 }

def push (s : UPB) (bs : Bytes) : UPB := { s with cont := s.cont ++ bs }

/-- UnicodeIterator.h:103-151: what happens after the last hex digit of an escape has been added to
`unicodeValue`. -/
def finish (s : UPB) : Res UPB :=
  let u := s.unicodeValue
  if u ≤ 0x7F then .ok (s.push [nb u])
  else if u ≤ 0x7FF then .ok (s.push [nb (0xC0 ||| (u >>> 6)), nb (0x80 ||| (u &&& 0x3F))])
  else if u ≤ 0xFFFF then
    if u &&& 0xFC00 ≠ 0xD800 then
      .ok (s.push [nb (0xE0 ||| (u >>> 12)), nb (0x80 ||| ((u >>> 6) &&& 0x3F)), nb (0x80 ||| (u &&& 0x3F))])
    else .ok { s with unicodeCount := 6 }
  else if u &&& 0xFC00FC00 ≠ 0xD800DC00 then throwStd
  else
    let v := 0x00010000 ||| ((u &&& 0x03FF0000) >>> 6) ||| (u &&& 0x000003FF)
    .ok ({ s with unicodeValue := v }.push
      [nb (0xF0 ||| (v >>> 18)), nb (0x80 ||| ((v >>> 12) &&& 0x3F)),
       nb (0x80 ||| ((v >>> 6) &&& 0x3F)), nb (0x80 ||| (v &&& 0x3F))])

/-- UnicodeIterator.h:72-181 `operator=(char x)`. -/
def assign (s : UPB) (x : Byte) : Res UPB :=
  if s.unicodeCount ≠ 0 then
    if s.unicodeCount = 6 then
      if x ≠ 0x5C then throwStd else .ok { s with unicodeCount := 5 }
    else if s.unicodeCount = 5 then
      if x ≠ 0x75 then throwStd else .ok { s with unicodeCount := 4 }
    else do
      let d ← convertHexToDec x
      let s1 := { s with unicodeValue := ((s.unicodeValue <<< 4) % 2 ^ 32 + d) % 2 ^ 32,
                         unicodeCount := s.unicodeCount - 1 }
      if s1.unicodeCount = 0 then finish s1 else .ok s1
  else if s.lastWasSlash then
    let s1 := { s with lastWasSlash := false }
    if x = 0x22 then .ok (s1.push [0x22])
    else if x = 0x5C then .ok (s1.push [0x5C])
    else if x = 0x2F then .ok (s1.push [0x2F])
    else if x = 0x62 then .ok (s1.push [0x08])
    else if x = 0x66 then .ok (s1.push [0x0C])
    else if x = 0x6E then .ok (s1.push [0x0A])
    else if x = 0x72 then .ok (s1.push [0x0D])
    else if x = 0x74 then .ok (s1.push [0x09])
    else if x = 0x75 then .ok { s1 with unicodeCount := 4, unicodeValue := 0 }
    else .ok s1
  else if x = 0x5C then .ok { s with lastWasSlash := true }
  else .ok (s.push [x])

/-- `std::copy(begin, end, make_UnicodePushBackIterator(cont))`. -/
def run (s : UPB) : Bytes → Res UPB
  | [] => .ok s
  | x :: xs => do
    let s ← assign s x
    run s xs

end UPB
end Thors
