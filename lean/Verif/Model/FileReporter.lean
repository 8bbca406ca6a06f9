import Verif.Model.Optimizer
import Verif.Model.Printf
import Verif.Num.Arith

/-!
# spot/file_reporter.h, spot/file_reporter.cpp

The reporter is a machine that gets the callbacks of an optimizer. The folder is a map from file names to their text; writing always
succeeds. `written` is not a data member: it records the par files written, with the step, for stating properties. `%04d` is assumed to print
`current_step()` (a `size_t`) in decimal.
-/

namespace Spot

/-- Number formats, `xo::median` (arbitrary functions), and the public data members of spot/file_reporter.h:20-24. -/
structure FileCfg where
  /-- A value in a par file (spot/search_point.cpp:120). -/
  fmt : Dbl → Str
  /-- `<<` of a number into the history. -/
  num : Dbl → Str
  /-- `%.3f`. -/
  f3 : Dbl → Str
  median : List Dbl → Dbl
  minImp : Dbl := .ofQ (1 / 20)
  maxSteps : Nat := 1000
  fitHistory : Bool := true
  parHistory : Bool := false
  individuals : Bool := false

/-- A callback with what the reporter asks the optimizer for: `make_updated_objective_info`, `optimizer_state_labels` and
`optimizer_state_values` are virtual functions. -/
structure Call where
  event : Event
  vis : Vis
  upd : ObjInfo
  labels : List Str := []
  state : List Dbl := []

/-- spot/file_reporter.h:29-32. -/
structure FileRep where
  files : Str → Option Str
  recent : List (Str × Dbl) := []
  /-- `index_t`, 64 bit; initially -1 (spot/file_reporter.cpp:20). -/
  lastOutput : Nat := 2 ^ 64 - 1
  /-- The lines written to history.txt; `none` before the stream is opened. -/
  history : Option (List Str) := none
  written : List (Nat × Str) := []

/-- `%04d` and `%02d`. -/
def decN (w n : Nat) : Str := digitsN (max w (Nat.log 10 n + 1)) n

/-- `xo::clamped( v, -999999.999, 999999.999 )`. -/
def repClamp (v : Dbl) : Dbl :=
  if Dbl.lt v (Dbl.ofQ (-999999999 / 1000)) then Dbl.ofQ (-999999999 / 1000) else if Dbl.lt (Dbl.ofQ (999999999 / 1000)) v then Dbl.ofQ (999999999 / 1000) else v

/-- spot/file_reporter.cpp:110: the name of a par file. -/
def FileCfg.parName (c : FileCfg) (v : Vis) : Str :=
  decN 4 v.stepCount ++ '_' :: (c.f3 (repClamp (c.median v.curFitnesses)) ++ '_' :: (c.f3 (repClamp v.curFitness) ++ ".par".toList))

/-- Create or overwrite a file. -/
def putFile (fs : Str → Option Str) (name text : Str) : Str → Option Str := fun n => if n = name then some text else fs n
/-- `xo::remove`. -/
def removeFile (fs : Str → Option Str) (name : Str) : Str → Option Str := fun n => if n = name then none else fs n

/-- spot/file_reporter.cpp:125-128: the relative improvement from `f1` to `f2`. -/
def improvement (minimize : Bool) (f1 f2 : Dbl) : Dbl :=
  let imp := Dbl.div (Dbl.sub f2 f1) (Dbl.abs f1)
  if minimize then Dbl.neg imp else imp

/-- spot/file_reporter.cpp:114-139: a new recent file, and the removal of the one before. -/
def FileRep.cleanup (c : FileCfg) (r : FileRep) (minimize : Bool) (name : Str) (best : Dbl) : Res FileRep :=
  match r.recent ++ [(name, best)] with
  | [f1, f2, f3] =>
    if Dbl.lt (improvement minimize f1.2 f2.2) c.minImp && Dbl.lt (improvement minimize f2.2 f3.2) c.minImp then
      .ok { r with files := removeFile r.files f2.1, recent := [f1, f3] }
    else .ok { r with recent := [f2, f3] }
  | l => if l.length ≤ 3 then .ok { r with recent := l } else .ub

/-- spot/file_reporter.cpp:103-142 `write_par_file`; the constructor of `search_point` asserts the size. -/
def FileRep.write (c : FileCfg) (r : FileRep) (x : Call) (tryCleanup : Bool) : Res FileRep :=
  SearchPoint.ofValues x.upd x.vis.curPoint >>= fun sp =>
    let name := c.parName x.vis
    let r := { r with files := putFile r.files name (sp.write c.fmt), written := r.written ++ [(x.vis.stepCount, name)] }
    (if tryCleanup then r.cleanup c x.vis.info.minimize name x.vis.curFitness else .ok r) >>= fun r =>
      .ok { r with lastOutput := x.vis.stepCount % 2 ^ 64 }

/-- Columns separated by tabs. -/
def tabs (l : List Str) : Str := (l.intersperse ['\t']).flatten

/-- spot/file_reporter.cpp:31-44: the columns of history.txt. -/
def FileCfg.headerCols (c : FileCfg) (x : Call) : List Str :=
  ["generation".toList, "best_fitness".toList, "median_fitness".toList] ++
    (if 0 < x.vis.capacity then ["predicted_fitness".toList, "fitness_progress".toList] else []) ++
    (if c.parHistory then x.vis.info.pars.map ParInfo.name ++ x.labels else [])

/-- spot/file_reporter.cpp:31-44: the first line of history.txt. -/
def FileCfg.header (c : FileCfg) (x : Call) : Str := tabs (c.headerCols x)

/-- spot/file_reporter.cpp:79-97: the values of a line of history.txt. `predicted_fitness` and `progress` have a result because the window is
not empty. -/
def FileCfg.lineCols (c : FileCfg) (E : OptEnv) (x : Call) : List Str :=
  let num (r : Res Dbl) : Str := match r with
    | .ok v => c.num v
    | _ => []
  [decN 1 x.vis.stepCount, c.num x.vis.curFitness, c.num (c.median x.vis.curFitnesses)] ++
    (if 0 < x.vis.capacity then [num (x.vis.predictedFitness E x.vis.capacity).2, num (x.vis.progress E).2] else []) ++
    (if c.parHistory then x.vis.curPoint.map c.num ++ x.state.map c.num else [])

/-- spot/file_reporter.cpp:79-97: a line of history.txt. -/
def FileCfg.histLine (c : FileCfg) (E : OptEnv) (x : Call) : Str := tabs (c.lineCols E x)

/-- spot/file_reporter.cpp:56-64: the files of the individuals `i`, `i + 1`, ... with the values `pop`. The points of a population belong to the
objective of the optimizer. -/
def putIndividuals (c : FileCfg) (v : Vis) : Nat → List Pt → (Str → Option Str) → Str → Option Str
  | _, [], fs => fs
  | i, p :: ps, fs => putIndividuals c v (i + 1) ps
      (putFile fs (decN 4 v.stepCount ++ '_' :: ("individual".toList ++ decN 2 i ++ ".par".toList)) ((SearchPoint.mk v.info p).write c.fmt))

/-- spot/file_reporter.cpp:23-101: a callback. `current_step() - last_output_step` is unsigned. Output to a stream that was never opened is lost. -/
def FileRep.on (c : FileCfg) (E : OptEnv) (r : FileRep) (x : Call) : Res FileRep :=
  match x.event with
  | .start => .ok (if c.fitHistory then { r with history := some [c.header x] } else r)
  | .preEvaluate pop => .ok (if c.individuals then { r with files := putIndividuals c x.vis 0 pop r.files } else r)
  | .postEvaluate _ _ _ =>
    if c.maxSteps ≤ (x.vis.stepCount % 2 ^ 64 + 2 ^ 64 - r.lastOutput) % 2 ^ 64 then r.write c x false else .ok r
  | .newBest _ _ => r.write c x true
  | .postStep => .ok (if c.fitHistory then { r with history := r.history.map (· ++ [c.histLine E x]) } else r)
  | .preStep => .ok r
  | .stop _ => .ok r

/-- All callbacks, in order. -/
def FileRep.run (c : FileCfg) (E : OptEnv) : FileRep → List Call → Res FileRep
  | r, [] => .ok r
  | r, x :: xs => r.on c E x >>= fun r => FileRep.run c E r xs

end Spot
