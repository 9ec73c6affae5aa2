import Verif.Model.JsonPrinter
/-
The static indentation buffer of the JSON printer (JsonPrinter.cpp:47-60) as what it is: one object for the whole program. A
bracket is put into it, the buffer is written up to the bracket, and the bracket is replaced by a space. Between these steps
other threads may run, and writing may end with an exception (a stream with `exceptions()` set).
-/
namespace Thors
namespace JPrint

/-- What a printer does: write something of its own, change a character of the shared buffer, write the first characters of
the shared buffer. -/
inductive Act
  | out (w : Write)
  | put (i : Nat) (c : Byte)
  | copy (n : Nat)
  deriving DecidableEq, Repr

/-- JsonPrinter.cpp:47-60 `printIndent` with a suffix. -/
def indentActs (cfg : PrintCfg) (size : Nat) (hasIndent : Bool) (suffix : Byte) : Res (List Act) :=
  if hasIndent = false then .ok [.out (.chars [suffix])]
  else
    let n := width cfg size
    if n ≤ 4003 then .ok [.put n suffix, .copy (n + 1), .put n 0x20] else .ub

/-- The calls of the printer interface, JsonPrinter.cpp:94-129, 166-212; calls that do not use the buffer as in `step`. -/
def stepActs (cfg : PrintCfg) : Cmd → List PState → Res (List Act × List PState)
  | _, [] => .ub
  | .openMap _, st :: ss => do
    let i ← indentActs cfg ss.length (cfg.layout ≠ .Stream) 0x7B
    return ((separator st false false).map .out ++ i, ⟨0, .Map, false⟩ :: st :: ss)
  | .closeMap, st :: ss =>
    if st.f1 ≠ .Map then throwStd else
    match ss with
    | [] => .ub
    | st' :: ss' => do
      let i ← indentActs cfg ss'.length (cfg.layout ≠ .Stream) 0x7D
      return (i, { st' with f0 := st'.f0 + 1 } :: ss')
  | .openArray _, st :: ss => do
    let i ← indentActs cfg ss.length (cfg.layout ≠ .Stream) 0x5B
    return ((separator st false false).map .out ++ i, ⟨0, .Array, false⟩ :: st :: ss)
  | .closeArray, st :: ss =>
    if st.f1 ≠ .Array then throwStd else
    match ss with
    | [] => .ub
    | st' :: ss' => do
      let i ← indentActs cfg ss'.length (cfg.layout ≠ .Stream ∧ st.f2 = false) 0x5D
      return (i, { st' with f0 := st'.f0 + 1 } :: ss')
  | c, st :: ss => do
    let (ws, ss) ← step cfg c (st :: ss)
    return (ws.map .out, ss)

/-- A sequence of calls. -/
def runActs (cfg : PrintCfg) : List Cmd → List PState → Res (List Act × List PState)
  | [], ss => .ok ([], ss)
  | c :: cs, ss => do
    let (a, ss) ← stepActs cfg c ss
    let (as, ss) ← runActs cfg cs ss
    return (a ++ as, ss)

/-- The actions of exporting a value to a stream (Exporter.h:54-99 with `jsonExport`). -/
def exportActs (env : Env) (cfg : PrintCfg) (ty : Ty) (v : Val) : Res (List Act) := do
  let cmds ← ser env cfg.marker noSize ty v
  let (as, _) ← runActs cfg cmds init
  return as

/-- One action, on the buffer and the text written so far. -/
def Act.perform (a : Act) (buf : Bytes) (text : List Write) : Bytes × List Write :=
  match a with
  | .out w => (buf, text ++ [w])
  | .put i c => (buf.set i c, text)
  | .copy n => (buf, text ++ [.chars (buf.take n)])

/-- Actions one after another. -/
def performAll : List Act → Bytes → List Write → Bytes × List Write
  | [], buf, text => (buf, text)
  | a :: as, buf, text => let (buf, text) := a.perform buf text; performAll as buf text

/-- A thread: what it still has to do, and what its stream contains. -/
structure Thread where
  todo : List Act
  text : List Write := []

/-- The program: the shared buffer and the threads. -/
structure Program where
  buf : Bytes := indentBuffer
  threads : List Thread

/-- Thread `i` takes its next action, if it has one. (The accesses to the buffer are not synchronised; a data race is undefined in
C++. Here each access is one step of its own, the most favourable reading.) -/
def Program.step (p : Program) (i : Nat) : Program :=
  match p.threads[i]? with
  | some ⟨a :: as, text⟩ => let (buf, text) := a.perform p.buf text; ⟨buf, p.threads.set i ⟨as, text⟩⟩
  | _ => p

/-- The threads take turns as the schedule says. -/
def Program.run (p : Program) (schedule : List Nat) : Program := schedule.foldl Program.step p

end JPrint
end Thors
