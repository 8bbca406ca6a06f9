import Verif.Model.FileReporter

/-!
# spot/console_reporter.h, spot/console_reporter.cpp

The reporter is a machine that gets the callbacks of an optimizer; what it prints is appended to `out`. `on_post_evaluate_point` (lines 15-18) is missing because no optimizer
calls it (`git grep` finds no other occurrence than its declarations), so that `individual_precision_` is not used. The conversions of `dim()` and `current_step()` (`size_t`) to `int`
are assumed to be exact. Time is a number of ticks of some clock.
-/

namespace Spot

/-- Number formats, `xo::average`, `xo::median` and `stop_condition::what()` (arbitrary functions), and the data members of spot/console_reporter.h:20-21. -/
structure ConCfg where
  /-- `%.*f`. -/
  fix : Int → Dbl → Str
  average : List Dbl → Dbl
  median : List Dbl → Dbl
  /-- `%.2f` of `timer_().secondsd()`, from the ticks since the timer was started. -/
  secs : Nat → Str
  /-- The message of the stop condition with that index. -/
  what : Nat → Str
  precision : Int := 2
  newlineBest : Bool := true

/-- The output so far, and when the timer was started (spot/console_reporter.h:23). -/
structure ConRep where
  out : Str := []
  started : Nat := 0

/-- `printf` of a text. -/
def ConRep.put (r : ConRep) (t : Str) : ConRep := { r with out := r.out ++ t }

/-- spot/console_reporter.cpp:20-30 `on_post_evaluate_population`. -/
def ConRep.evaluated (c : ConCfg) (r : ConRep) (v : Vis) (fs : List Dbl) (newBest : Bool) : ConRep :=
  let avg := c.average fs
  let med := c.median fs
  let r := r.put (" A=".toList ++ c.fix c.precision avg ++ " M=".toList ++ c.fix c.precision med)
  let r := if newBest then r.put (" B=".toList ++ c.fix c.precision v.bestFitness) else r
  if c.newlineBest && newBest then r.put "\n".toList else r.put "\r".toList

/-- A callback at the time `now`: spot/console_reporter.cpp:20-47. -/
def ConRep.call (c : ConCfg) (r : ConRep) (now : Nat) : Event × Vis → ConRep
  | (.start, v) => { r.put ("Starting optimization, dim=".toList ++ decN 1 v.info.dim ++ "\n".toList) with started := now }
  | (.preStep, v) => r.put (decN 4 v.stepCount ++ ": ".toList)
  | (.postEvaluate _ fs nb, v) => r.evaluated c v fs nb
  | (.stop k, _) => r.put ("\nOptimization finished in ".toList ++ c.secs (now - r.started) ++ "s: ".toList ++ c.what k ++ "\n".toList)
  | (.preEvaluate _, _) => r
  | (.newBest _ _, _) => r
  | (.postStep, _) => r

/-- All callbacks, each with the time it happens at. -/
def ConRep.run (c : ConCfg) : ConRep → List (Nat × Event × Vis) → ConRep
  | r, [] => r
  | r, (now, e) :: xs => ConRep.run c (r.call c now e) xs

end Spot
