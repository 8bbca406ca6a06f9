import Verif.Model.Evolution

/-!
# spot/math_tools.cpp, spot/test_objectives.cpp, spot/data_objective.h, spot/search_point.cpp:125-146

Written for any arithmetic, as the optimizers. The vectors of the test objectives are lists: their size is not fixed.
-/

namespace Spot

/-- `sin`, `cos` and `xo::constantsd::pi()`. -/
class Trig (K : Type) where
  sin : K → K
  cos : K → K
  pi : K

noncomputable instance : Trig ℝ where
  sin := Real.sin
  cos := Real.cos
  pi := Real.pi

variable {K : Type} [Arith K] {n : Nat}

/-- spot/math_tools.cpp:7-14 `mahalanobis_distance`: only the diagonal of the matrix is used. -/
def mahalanobisDistance (a b : Fin n → K) (cov : Fin n → Fin n → K) : K := Arith.sqrt (sumFin fun i => squared (a i - b i) / cov i i)

/-- spot/math_tools.cpp:16-23 `normalized_distance`. -/
def normalizedDistance (a b var : Fin n → K) : K := Arith.sqrt (sumFin fun i => squared (a i - b i) / var i)

/-- spot/search_point.cpp:129-134: the mean. -/
def popMean (pop : List (Fin n → K)) (i : Fin n) : K := pop.foldl (fun m x => m + x i / lit (pop.length : ℚ)) (lit 0)

/-- spot/search_point.cpp:125-146 `compute_mean_std`; `front()` of an empty population is undefined. -/
def computeMeanStd (pop : List (Fin n → K)) : Res ((Fin n → K) × (Fin n → K)) :=
  if pop = [] then .ub
  else .ok (popMean pop, fun i => Arith.sqrt (pop.foldl (fun s x => s + squared (x i - popMean pop i) / lit (pop.length : ℚ)) (lit 0)))

/-- spot/test_objectives.cpp:5-11. The `unsigned int` indices of this file are assumed not to wrap around. -/
def sphere (v : List K) : K := v.foldl (fun s x => s + squared x) (lit 0)

/-- spot/test_objectives.cpp:13-19. -/
def ellipsoid (v : List K) : K := v.zipIdx.foldl (fun s x => s + lit ((x.2 : ℚ) + 1) * squared x.1) (lit 0)

/-- spot/test_objectives.cpp:21-24; reads two elements. -/
def himmelblau : List K → Res K
  | x :: y :: _ => .ok (squared (squared x + y - lit 11) + squared (x + squared y - lit 7))
  | _ => .ub

/-- spot/test_objectives.cpp:26-32: `v.size() - 1` is unsigned, so that the loop reads outside of an empty vector. -/
def rosenbrock (v : List K) : Res K :=
  if v = [] then .ub
  else .ok ((v.zip v.tail).foldl (fun s x => s + (lit 100 * squared (x.2 - squared x.1) + squared (lit 1 - x.1))) (lit 0))

/-- spot/test_objectives.cpp:34-40. -/
def schwefel [Trig K] (v : List K) : K :=
  lit (4189829 / 10000) * lit (v.length : ℚ) - v.foldl (fun s x => s + x * Trig.sin (Arith.sqrt (Arith.abs x))) (lit 0)

/-- spot/test_objectives.cpp:42-48. -/
def rastrigin [Trig K] (v : List K) : K :=
  v.foldl (fun s x => s + (squared x - lit 10 * Trig.cos (lit 2 * Trig.pi * x))) (lit 10 * lit (v.length : ℚ))

/-- spot/data_objective.h:39-45 `evaluate` of a `data_objective`, for the model (a function of the input) that the point stands for. -/
def dataFitness {X : Type} (model : X → K) (data : List (X × K)) : K :=
  data.foldl (fun s d => s + squared (model d.1 - d.2)) (lit 0) / lit (data.length : ℚ)

end Spot
