import Verif.Spec.Matrix
import Mathlib.Analysis.SpecialFunctions.Pow.Real
import Mathlib.LinearAlgebra.Matrix.DotProduct

/-!
# The CMA evolution strategy, as published

N. Hansen, "The CMA evolution strategy: a comparing review" (2006) and the C code of Hansen from which spot/cma_optimizer.cpp is derived
(its two additions: the step size grows if the best and the median fitness are equal; the factor with `maxIter` in the damping). Real
vectors and matrices, written as in the literature; nothing here refers to the model of the program.
-/

namespace Spot.Spec.CmaEs

open Matrix

/-- The strategy parameters of the distribution update. -/
structure Params (μ : Nat) where
  /-- recombination weights -/
  w : Fin μ → ℝ
  μeff : ℝ
  cσ : ℝ
  dσ : ℝ
  cc : ℝ
  ccov : ℝ
  μcov : ℝ
  /-- expected length of a standard normal vector -/
  χ : ℝ

/-- The state of the strategy. -/
structure State (n : Nat) where
  m : Fin n → ℝ
  σ : ℝ
  C : Matrix (Fin n) (Fin n) ℝ
  pσ : Fin n → ℝ
  pc : Fin n → ℝ

/-- Length of a vector. -/
noncomputable def norm {n : Nat} (v : Fin n → ℝ) : ℝ := Real.sqrt (v ⬝ᵥ v)

/-- One update in generation `g` with the individuals `x` (the best first) and an inverse square root `R` of the covariance matrix: `Step`
relates the old state to the new one. `flat`: the best half of the individuals has the same fitness. -/
def Step {n μ : Nat} (p : Params μ) (g : Nat) (R : Matrix (Fin n) (Fin n) ℝ) (x : Fin μ → Fin n → ℝ) (flat : Prop) (s t : State n) : Prop :=
  ∃ (σ' : ℝ) (y : Fin n → ℝ) (h : ℝ),
    (flat → σ' = s.σ * Real.exp (0.2 + p.cσ / p.dσ)) ∧ (¬ flat → σ' = s.σ) ∧
    t.m = ∑ k, p.w k • x k ∧
    σ' • y = t.m - s.m ∧
    t.pσ = (1 - p.cσ) • s.pσ + Real.sqrt (p.cσ * (2 - p.cσ) * p.μeff) • (R *ᵥ y) ∧
    (norm t.pσ < (1.4 + 2 / (n + 1)) * p.χ * Real.sqrt (1 - (1 - p.cσ) ^ (2 * g)) → h = 1) ∧
    (¬ norm t.pσ < (1.4 + 2 / (n + 1)) * p.χ * Real.sqrt (1 - (1 - p.cσ) ^ (2 * g)) → h = 0) ∧
    t.pc = (1 - p.cc) • s.pc + (h * Real.sqrt (p.cc * (2 - p.cc) * p.μeff)) • y ∧
    t.C = (1 - p.ccov) • s.C + (p.ccov / p.μcov) • (vecMulVec t.pc t.pc + ((1 - h) * p.cc * (2 - p.cc)) • s.C) +
      (p.ccov * (1 - 1 / p.μcov)) • ∑ k, p.w k • vecMulVec ((1 / σ') • (x k - s.m)) ((1 / σ') • (x k - s.m)) ∧
    t.σ = σ' * Real.exp (p.cσ / p.dσ * (norm t.pσ / p.χ - 1))

/-- The default parameters for dimension `n` and `lam` individuals (`rt2` stands for the square root of two), where `maxEvals` is the number of
evaluations assumed for the damping. -/
structure Defaults (n lam : Nat) (rt2 maxEvals : ℝ) (p : Params (lam / 2)) : Prop where
  w : ∃ c : ℝ, 0 < c ∧ ∀ i : Fin (lam / 2), p.w i = c * (Real.log ((lam / 2 : Nat) + 1) - Real.log (i + 1))
  one : ∑ i, p.w i = 1
  μeff : p.μeff * ∑ i, p.w i ^ 2 = 1
  cσ : p.cσ = (p.μeff + 2) / (n + p.μeff + 3)
  cc : p.cc = 4 / (n + 4)
  μcov : p.μcov = p.μeff
  ccov : p.ccov = 1 / p.μcov * (2 / (n + rt2) ^ 2) + (1 - 1 / p.μcov) * min 1 ((2 * p.μeff - 1) / ((n + 2) ^ 2 + p.μeff))
  dσ : p.dσ = (1 + 2 * max 0 (Real.sqrt ((p.μeff - 1) / (n + 1)) - 1)) * max 0.3 (1 - n / (10⁻¹ ^ 6 + maxEvals / lam)) + p.cσ
  χ : p.χ = Real.sqrt n * (1 - 1 / (4 * n) + 1 / (21 * n ^ 2))

end Spot.Spec.CmaEs
