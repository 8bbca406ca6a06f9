import Verif.Num.Arith
import Mathlib.Algebra.BigOperators.Fin

/-! # The operations of exact arithmetic are those of the real numbers -/

namespace Spot

@[simp] theorem lit_real (q : ℚ) : (lit q : ℝ) = (q : ℝ) := rfl
@[simp] theorem lt_real (a b : ℝ) : Arith.lt a b = decide (a < b) := rfl
@[simp] theorem le_real (a b : ℝ) : Arith.le a b = decide (a ≤ b) := rfl
@[simp] theorem eq_real (a b : ℝ) : Arith.eq a b = decide (a = b) := rfl
@[simp] theorem sqrt_real (a : ℝ) : Arith.sqrt a = Real.sqrt a := rfl
@[simp] theorem exp_real (a : ℝ) : Arith.exp a = Real.exp a := rfl
@[simp] theorem log_real (a : ℝ) : Arith.log a = Real.log a := rfl
@[simp] theorem pow_real (a b : ℝ) : Arith.pow a b = a ^ b := rfl

@[simp] theorem min_real (a b : ℝ) : Arith.min a b = min a b := by
  unfold Arith.min
  by_cases h : b < a
  · simp [h, min_eq_right h.le]
  · simp [h, min_eq_left (not_lt.1 h)]

@[simp] theorem max_real (a b : ℝ) : Arith.max a b = max a b := by
  unfold Arith.max
  by_cases h : a < b
  · simp [h, max_eq_right h.le]
  · simp [h, max_eq_left (not_lt.1 h)]

@[simp] theorem abs_real (a : ℝ) : Arith.abs a = |a| := by
  unfold Arith.abs
  by_cases h : a < 0
  · simp [h, abs_of_neg h]
  · simp [h, abs_of_nonneg (not_lt.1 h)]

@[simp] theorem squared_real (a : ℝ) : squared a = a ^ 2 := by unfold squared; ring

theorem foldl_real {α : Type} (f : α → ℝ) : ∀ (l : List α) (a : ℝ), l.foldl (fun a x => a + f x) a = a + (l.map f).sum := by
  intro l
  induction l with
  | nil => intro a; simp
  | cons x l ih => intro a; rw [List.foldl_cons, ih]; simp only [List.map_cons, List.sum_cons]; ring

@[simp] theorem sumFin_real {n : Nat} (f : Fin n → ℝ) : sumFin f = ∑ i, f i := by
  unfold sumFin
  refine (foldl_real f _ _).trans ?_
  rw [lit_real, Rat.cast_zero, zero_add, Fin.sum_univ_def]

@[simp] theorem sumLoop_real (n : Nat) (f : Nat → ℝ) : sumLoop n f = ∑ i ∈ Finset.range n, f i := by
  unfold sumLoop
  refine (foldl_real f _ _).trans ?_
  rw [lit_real, Rat.cast_zero, zero_add]
  rfl

end Spot
