import Verif.Model.Optimizer
import Verif.Model.MathTools

/-! # `similarity_condition` (spot/stop_condition.h:82-93, spot/stop_condition.cpp:57-79) -/

namespace Spot

/-- spot/math_tools.cpp:16-23 `normalized_distance` with its assertion on the sizes. -/
def normDist {K : Type} [Arith K] (a b var : List K) : Res K :=
  if h : a.length = b.length ∧ b.length = var.length then
    .ok (normalizedDistance (fun i : Fin a.length => a.get i) (fun i => b.get (i.cast h.1)) (fun i => var.get (i.cast (h.1.trans h.2))))
  else .ub

/-- spot/stop_condition.h:87-92: the public data members. `similar_idx` is `none` for `no_index`. -/
structure Similarity where
  points : List Pt := []
  similarities : List Dbl := []
  idx : Option Nat := none
  minSteps : Int := 10
  minDistance : Dbl := .fin 1

/-- `min_steps_` converted to `size_t`, as the comparison with `current_step()` does (spot/stop_condition.cpp:59). -/
def Similarity.minStepsConverted (c : Similarity) : Nat := if c.minSteps < 0 then (2 ^ 64 + c.minSteps).toNat else c.minSteps.toNat

/-- spot/stop_condition.cpp:63-76: the loop from point `i` on. -/
def Similarity.loop [Libm] (point std : Pt) (c : Similarity) : Nat → List Pt → Similarity × Res Bool
  | _, [] => (c, .ok false)
  | i, q :: qs => match normDist point q std with
    | .ok d =>
      let c := { c with similarities := c.similarities.set i d }
      if Dbl.lt d c.minDistance then ({ c with idx := some i }, .ok true) else Similarity.loop point std c (i + 1) qs
    | .err => (c, .err)
    | .ub => (c, .ub)

/-- spot/stop_condition.cpp:57-79 `test`. `isCma`: whether the optimizer is a `cma_optimizer`; otherwise the cast of a reference throws `std::bad_cast`. `resize` keeps old
values and adds zeros. -/
def Similarity.test [Libm] (c : Similarity) (isCma : Bool) (steps : Nat) (point std : Pt) : Similarity × Res Bool :=
  if c.minStepsConverted ≤ steps then
    let c := { c with similarities := (c.similarities ++ List.replicate (c.points.length - c.similarities.length) (Dbl.fin 0)).take c.points.length }
    if isCma then Similarity.loop point std c 0 c.points else (c, .err)
  else (c, .ok false)

/-- The condition as the optimizer sees it (`Cond.custom`): what `test` returns on its current best point and the stds of the objective. -/
def Similarity.asCond [Libm] (c : Similarity) : Cond :=
  .custom 0 false fun v => match (c.test true v.stepCount v.curPoint (v.info.pars.map ParInfo.std)).2 with
    | .ok b => b
    | _ => false

end Spot
