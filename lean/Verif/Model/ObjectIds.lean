import Verif.Model.Mongo
/-
Default constructed ObjectIDs of one program: `/repo/src/Serialize/MongoUtilityObjectId.h`, `/repo/src/Serialize/MongoUtility.cpp`.
-/
namespace Thors
namespace ObjectID

/-- MongoUtility.cpp:6-10 `classCounter`: the value the counter starts with, for a result of `std::rand()`. Overflow of the `int` is
undefined. -/
def startCounter (rand : Int) : Res Int := if 32769 + rand < 2 ^ 31 then .ok (32769 + rand) else .ub

/-- MongoUtilityObjectId.h:52, the default arguments: the time in seconds as `std::int32_t` and a random number (given here), and the
next counter. -/
def make (n : Int) (time rand : Int) : Res (ObjectID × Int) := do
  let (c, n) ← nextCounter n
  return (⟨time, rand, c, []⟩, n)

/-- ObjectIDs made one after another, with what the clock and `std::rand()` gave for each. -/
def makeAll : Int → List (Int × Int) → Res (List ObjectID × Int)
  | n, [] => .ok ([], n)
  | n, (t, r) :: rest => do
    let (o, n) ← make n t r
    let (os, n) ← makeAll n rest
    return (o :: os, n)

/-- Threads that take counters: each has the value it read of `classCounter()`, if it did not write it back yet, and the counters
it got. -/
structure Taking where
  counter : Int
  threads : List (Option Int × List Int)

/-- MongoUtilityObjectId.h:39-42, `classCounter()++` as reading and writing (the counter is a plain `int`, not synchronised). -/
def Taking.step (p : Taking) (i : Nat) : Taking :=
  match p.threads[i]? with
  | some (none, got) => ⟨p.counter, p.threads.set i (some p.counter, got)⟩
  | some (some v, got) => ⟨v + 1, p.threads.set i (none, got ++ [v.tmod 0xFFF])⟩
  | none => p

/-- The threads take turns as the schedule says. -/
def Taking.run (p : Taking) (schedule : List Nat) : Taking := schedule.foldl Taking.step p

end ObjectID
end Thors
