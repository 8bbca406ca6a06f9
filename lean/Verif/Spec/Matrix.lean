import Mathlib.Data.Real.Basic
import Mathlib.Algebra.BigOperators.Fin

/-! # Symmetric matrices -/

namespace Spot.Spec

/-- The quadratic form of a matrix. -/
def quad {n : Nat} (M : Fin n → Fin n → ℝ) (x : Fin n → ℝ) : ℝ := ∑ i, ∑ j, x i * M i j * x j

/-- Symmetric and positive definite. -/
def PosDef {n : Nat} (M : Fin n → Fin n → ℝ) : Prop := (∀ i j, M i j = M j i) ∧ ∀ x, x ≠ 0 → 0 < quad M x

/-- The symmetric matrix with the given lower triangle. -/
def symmOf {n : Nat} (L : Fin n → Fin n → ℝ) (i j : Fin n) : ℝ := if j ≤ i then L i j else L j i

end Spot.Spec
