/-!
# The time loop
-/
namespace NeoFOAM

/-- `Time` (include/NeoFOAM/core/time.hpp:25-50): the current time is all it stores. Both constructors (lines 32-34) set it to zero and ignore their arguments. -/
structure Time (F : Type) where
  time : F

/-- `Time()`, `Time(word, ArgList)` (include/NeoFOAM/core/time.hpp:32-34). -/
def Time.new (F : Type) [Zero F] : Time F := ⟨0⟩

/-- `loop()` (include/NeoFOAM/core/time.hpp:38-42); `ten` is the literal `10.0`. Simplified: `scalar` has the precision of the literals; in single precision the sum
is formed in double precision and then rounded. -/
def Time.loop {F : Type} [Add F] [One F] [LE F] [DecidableLE F] (ten : F) (t : Time F) : Bool × Time F :=
  let t' : Time F := ⟨t.time + 1⟩
  (decide (t'.time ≤ ten), t')

/-- `while (runTime.loop()) { body }` (the loop of an application, as in the OpenFOAM solvers the class stands in for; not in the code): the states of the rounds that are
made, with the time that each of them sees, when at most `fuel` calls of `loop` are made; the flag tells whether `loop` has returned false. -/
def Time.rounds {F : Type} [Add F] [One F] [LE F] [DecidableLE F] (ten : F) : Nat → Time F → List F × Bool
  | 0, _ => ([], false)
  | fuel + 1, t =>
    let r := t.loop ten
    if r.1 then
      let rest := Time.rounds ten fuel r.2
      (r.2.time :: rest.1, rest.2)
    else ([], true)

end NeoFOAM
