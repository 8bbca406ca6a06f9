import Verif.Model.MathTools
import Verif.Model.SearchPoint

/-! # spot/function_objective.h, spot/test_objectives.cpp:50-91, spot/data_objective.h:10-49 -/

namespace Spot

/-- spot/function_objective.h:12-33 `function_objective`: the info of the base class and the function; `Res.ub` where the function reads outside of its vector. -/
structure FnObjective where
  info : ObjInfo
  fn : List Dbl → Res Dbl

/-- spot/function_objective.h:22-27: the constructor with the same numbers for every parameter. -/
def FnObjective.make (fn : List Dbl → Res Dbl) (d : Nat) (mean std lower upper : Dbl) (name : Str) : Res FnObjective := do
  let i ← makeObjectiveInfo d mean std lower upper
  .ok { info := { i with name := name }, fn := fn }

/-- spot/function_objective.h:15-20: the constructor with vectors. -/
def FnObjective.makeVec (fn : List Dbl → Res Dbl) (mean std lower upper : List Dbl) (name : Str) : Res FnObjective := do
  let i ← makeObjectiveInfoVec mean std lower upper
  .ok { info := { i with name := name }, fn := fn }

/-- spot/function_objective.h:29 `evaluate`. -/
def FnObjective.evaluate (o : FnObjective) (p : SearchPoint) : Res Dbl := o.fn p.values

/-- `xo::stringf( "text-%d", d )`. -/
def dimName (t : String) (d : Nat) : Str := t.toList ++ ('-' :: (toString d).toList)

section
variable [Libm]

/-- spot/test_objectives.cpp:50-53 (default arguments in test_objectives.h:32). -/
def makeSphere (d : Nat) (mean std : Dbl) : Res FnObjective :=
  FnObjective.make (fun v => .ok (sphere v)) d mean std (.ofQ (-10 ^ 9)) (.ofQ (10 ^ 9)) (dimName "sphere" d)

/-- spot/test_objectives.cpp:55-58. -/
def makeEllipsoid (d : Nat) (mean std : Dbl) : Res FnObjective :=
  FnObjective.make (fun v => .ok (ellipsoid v)) d mean std (.ofQ (-10 ^ 9)) (.ofQ (10 ^ 9)) (dimName "ellipsoid" d)

/-- spot/test_objectives.cpp:60-63. -/
def makeHimmelblau : Res FnObjective := FnObjective.make himmelblau 2 (.ofQ 0) (.ofQ (5 / 2)) (.ofQ (-5)) (.ofQ 5) "himmelblau".toList

/-- spot/test_objectives.cpp:65-68. -/
def makeRosenbrock (d : Nat) : Res FnObjective := FnObjective.make rosenbrock d (.ofQ (5 / 2)) (.ofQ 1) (.ofQ (-5)) (.ofQ 10) (dimName "rosenbrock" d)

variable [Trig Dbl]

/-- spot/test_objectives.cpp:70-73. -/
def makeSchwefel (d : Nat) : Res FnObjective := FnObjective.make (fun v => .ok (schwefel v)) d (.ofQ 0) (.ofQ 100) (.ofQ (-500)) (.ofQ 500) (dimName "schwefel" d)

/-- spot/test_objectives.cpp:75-78. -/
def makeRastrigin (d : Nat) : Res FnObjective :=
  FnObjective.make (fun v => .ok (rastrigin v)) d (.ofQ 0) (.ofQ 1) (.ofQ (-512 / 100)) (.ofQ (512 / 100)) (dimName "rastrigin" d)

/-- spot/test_objectives.cpp:80-91 `make_objectives`. -/
def makeObjectives : List Nat → Res (List FnObjective)
  | [] => .ok []
  | d :: ds => do
    let a ← makeSphere d (.ofQ 0) (.ofQ 1)
    let b ← makeRosenbrock d
    let c ← makeRastrigin d
    let e ← makeSchwefel d
    let t ← makeObjectives ds
    .ok (a :: b :: c :: e :: t)

end

/-- spot/data_objective.h:34-37: the constructor of a `data_objective` for a model that keeps the defaults of `data_model` (13-16, spot/par_options.h:9-10). -/
def dataInfo (dim : Nat) : Res ObjInfo :=
  makeObjectiveInfoVec (List.replicate dim (.ofQ 0)) (List.replicate dim (.ofQ (1 / 10))) (List.replicate dim (.ofQ (-10 ^ 12))) (List.replicate dim (.ofQ (10 ^ 12)))

/-- spot/data_objective.h:19-21 (the model is constructed for a point of its own size, otherwise an exception) and 39-45 `evaluate`. -/
def dataEvaluate [Libm] {X : Type} (dim : Nat) (model : List Dbl → X → Dbl) (data : List (X × Dbl)) (p : SearchPoint) : Res Dbl :=
  if p.values.length = dim then .ok (dataFitness (model p.values) data) else .err

end Spot
