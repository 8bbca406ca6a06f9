import Verif.Lemmas.Loops
import Mathlib.Tactic.LinearCombination
import Mathlib.Tactic.Linarith
import Mathlib.Tactic.FieldSimp

/-!
# The QL iteration in exact arithmetic

The matrix under the iteration is represented by its quadratic form: `x` is expressed in the basis of the columns of `V` (`coord`), and the form is
that of the tridiagonal matrix in these coordinates (`triForm`).
-/

namespace Spot

open Finset

/-- Coordinates of `x` with respect to the columns of `V`. -/
def coord (n : Nat) (V : Nat → Nat → ℝ) (x : Nat → ℝ) (j : Nat) : ℝ := ∑ k ∈ range n, V k j * x k

/-- The form of the tridiagonal matrix with diagonal `d` and off-diagonal `e`. -/
def triForm (n : Nat) (d e z : Nat → ℝ) : ℝ := ∑ j ∈ range n, (d j * z j ^ 2 + 2 * e j * z j * z (j + 1))

/-- The square of the Euclidean norm. -/
def sqNorm (n : Nat) (z : Nat → ℝ) : ℝ := ∑ j ∈ range n, z j ^ 2

theorem sqNorm_nonneg (n : Nat) (z : Nat → ℝ) : 0 ≤ sqNorm n z := sum_nonneg fun _ _ => sq_nonneg _

theorem myhypot_real (a b : ℝ) : myhypot a b = Real.sqrt (a ^ 2 + b ^ 2) := by
  have key : ∀ u v : ℝ, u ≠ 0 → |u| * Real.sqrt (1 + v / u * (v / u)) = Real.sqrt (u ^ 2 + v ^ 2) := by
    intro u v hu
    rw [← Real.sqrt_sq_eq_abs, ← Real.sqrt_mul (sq_nonneg u)]
    congr 1
    field_simp
  unfold myhypot
  simp only [abs_real, lt_real, eq_real, sqrt_real, lit_real, Rat.cast_one, Rat.cast_zero, decide_eq_true_eq]
  by_cases h : |b| < |a|
  · rw [if_pos h]
    exact key a b fun h0 => by rw [h0, abs_zero] at h; exact absurd h (not_lt.2 (abs_nonneg b))
  · rw [if_neg h]
    by_cases hb : b = 0
    · have ha : a = 0 := by
        rw [hb, abs_zero] at h
        exact abs_eq_zero.1 (le_antisymm (not_lt.1 h) (abs_nonneg a))
      subst hb ha
      simp
    · simp only [hb, decide_false, Bool.not_false, if_true]
      rw [key b a hb, add_comm]

theorem rotate_eq (n i : Nat) (c s : ℝ) (V : Nat → Nat → ℝ) : rotate n i c s V = fun k j =>
    if k < n then (if j = i + 1 then s * V k i + c * V k (i + 1) else if j = i then c * V k i - s * V k (i + 1) else V k j) else V k j := by
  unfold rotate
  refine forUp_inv (fun m W => W = fun k j =>
    if k < m then (if j = i + 1 then s * V k i + c * V k (i + 1) else if j = i then c * V k i - s * V k (i + 1) else V k j) else V k j) (Nat.zero_le n) ?_ ?_
  · funext k j; simp
  · rintro m _ - - rfl
    funext k j
    simp only [set2]
    by_cases hk : k = m
    · subst hk
      by_cases h1 : j = i + 1
      · subst h1; simp
      · by_cases h2 : j = i
        · subst h2; simp
        · simp [h1, h2]
    · have : (k < m + 1) ↔ k < m := by omega
      simp [hk, this]

theorem coord_rotate (n i : Nat) (c s : ℝ) (V : Nat → Nat → ℝ) (x : Nat → ℝ) (j : Nat) : coord n (rotate n i c s V) x j =
    if j = i + 1 then s * coord n V x i + c * coord n V x (i + 1) else if j = i then c * coord n V x i - s * coord n V x (i + 1) else coord n V x j := by
  rw [rotate_eq]
  unfold coord
  by_cases h1 : j = i + 1
  · rw [if_pos h1, mul_sum, mul_sum, ← sum_add_distrib]
    refine sum_congr rfl fun k hk => ?_
    dsimp only
    rw [if_pos (mem_range.1 hk), if_pos h1]
    ring
  · rw [if_neg h1]
    by_cases h2 : j = i
    · rw [if_pos h2, mul_sum, mul_sum, ← sum_sub_distrib]
      refine sum_congr rfl fun k hk => ?_
      dsimp only
      rw [if_pos (mem_range.1 hk), if_neg h1, if_pos h2]
      ring
    · rw [if_neg h2]
      refine sum_congr rfl fun k hk => ?_
      dsimp only
      rw [if_pos (mem_range.1 hk), if_neg h1, if_neg h2]

/-- Sums that differ in three neighbouring terms. -/
theorem sum_diff3 {n k : Nat} (hk : k + 2 < n) (F G : Nat → ℝ) (h : ∀ j, j ≠ k → j ≠ k + 1 → j ≠ k + 2 → F j = G j) :
    ∑ j ∈ range n, F j = ∑ j ∈ range n, G j + ((F k - G k) + (F (k + 1) - G (k + 1)) + (F (k + 2) - G (k + 2))) := by
  have h1 : ∑ j ∈ range n, (F j - G j) = ∑ j ∈ ({k, k + 1, k + 2} : Finset Nat), (F j - G j) := by
    refine (sum_subset ?_ ?_).symm
    · intro j hj
      simp only [mem_insert, mem_singleton] at hj
      exact mem_range.2 (by omega)
    · intro j _ hj
      simp only [mem_insert, mem_singleton, not_or] at hj
      rw [h j hj.1 hj.2.1 hj.2.2, sub_self]
  rw [sum_insert (by simp), sum_insert (by simp), sum_singleton, sum_sub_distrib] at h1
  linarith

/-- Sums that differ in two neighbouring terms. -/
theorem sum_diff2 {n k : Nat} (hk : k + 1 < n) (F G : Nat → ℝ) (h : ∀ j, j ≠ k → j ≠ k + 1 → F j = G j) :
    ∑ j ∈ range n, F j = ∑ j ∈ range n, G j + ((F k - G k) + (F (k + 1) - G (k + 1))) := by
  have h1 : ∑ j ∈ range n, (F j - G j) = ∑ j ∈ ({k, k + 1} : Finset Nat), (F j - G j) := by
    refine (sum_subset ?_ ?_).symm
    · intro j hj
      simp only [mem_insert, mem_singleton] at hj
      exact mem_range.2 (by omega)
    · intro j _ hj
      simp only [mem_insert, mem_singleton, not_or] at hj
      rw [h j hj.1 hj.2, sub_self]
  rw [sum_insert (by simp), sum_singleton, sum_sub_distrib] at h1
  linarith

/-- `e[i - 1] * z[i - 1]`, nothing for `i = 0`. -/
def predTerm (e z : Nat → ℝ) : Nat → ℝ
  | 0 => 0
  | k + 1 => e k * z k

/-- The off-diagonal that the sweep from `m` works with: element `m` is neglected. -/
def cut (e : Nat → ℝ) (m : Nat) (j : Nat) : ℝ := if j = m then 0 else e j

/-- The form of the matrix in the middle of a sweep. -/
def Sweep.form (n m i : Nat) (w : Sweep ℝ) (z : Nat → ℝ) : ℝ :=
  triForm n w.d (cut w.e m) z + (w.c * w.p - w.d i) * z i ^ 2 + 2 * (w.s * w.p - cut w.e m i) * z i * z (i + 1) +
    2 * predTerm w.e z i * ((w.c - 1) * z i + w.s * z (i + 1))

/-- What a sweep maintains. `d`, `e`, `V` are the arrays at its beginning. -/
structure Sweep.Inv (n l m : Nat) (d e : Nat → ℝ) (V : Nat → Nat → ℝ) (i : Nat) (w : Sweep ℝ) : Prop where
  cs : w.c ^ 2 + w.s ^ 2 = 1
  d_le : ∀ j, j ≤ i → w.d j = d j
  d_gt : ∀ j, m < j → w.d j = d j
  e_lt : ∀ j, j ≤ i → j < m → w.e j = e j
  e_gt : ∀ j, m < j → w.e j = e j
  e_m : i < m → w.e m = 0
  e_ne : ∀ j, i < j → j < m → w.e j ≠ 0
  s_ne : i < m → w.s ≠ 0
  top : i = m → w.c = 1 ∧ w.s = 0
  p_eq : w.p = w.c * d i - w.s * w.c2 * e i
  c2_le : w.c2 ^ 2 ≤ 1
  prev : i < m → ∃ p r, 0 < r ∧ w.c * r = p ∧ w.s * r = e i ∧ (i + 1 < m → w.e (i + 1) = w.s2 * r) ∧
    p = w.c2 * d (i + 1) - w.s2 * w.c3 * e (i + 1) ∧ w.c2 ^ 2 + w.s2 ^ 2 = 1 ∧ w.c3 ^ 2 ≤ 1 ∧ (i + 1 = m → w.s2 = 0)
  form : ∀ x, w.form n m i (coord n w.V x) = triForm n d (cut e m) (coord n V x)
  norm : ∀ x, sqNorm n (coord n w.V x) = sqNorm n (coord n V x)
  low : ∀ x j, j < i → coord n w.V x j = coord n V x j

theorem Sweep.step_form {n m i : Nat} (hm : m < n) (hi : i < m) (w : Sweep ℝ) {r : ℝ} (hr : r ≠ 0) (hr' : myhypot w.p (w.e i) = r)
    (hcs : (w.p / r) ^ 2 + (w.e i / r) ^ 2 = 1) (hs : i + 1 = m → w.s = 0) (z : Nat → ℝ) (y : Nat → ℝ)
    (hy : ∀ j, y j = if j = i + 1 then w.e i / r * z i + w.p / r * z (i + 1) else if j = i then w.p / r * z i - w.e i / r * z (i + 1) else z j) :
    (w.step n i).form n m i y = w.form n m (i + 1) z := by
  set c := w.p / r with hc
  set s := w.e i / r with hs'
  have hp : w.p = c * r := by rw [hc]; field_simp
  have he : w.e i = s * r := by rw [hs']; field_simp
  have y1 : y (i + 1) = s * z i + c * z (i + 1) := by rw [hy, if_pos rfl]
  have y0 : y i = c * z i - s * z (i + 1) := by rw [hy, if_neg (by omega), if_pos rfl]
  have yo : ∀ j, j ≠ i → j ≠ i + 1 → y j = z j := fun j h1 h2 => by rw [hy, if_neg h2, if_neg h1]
  have z0 : z i = c * y i + s * y (i + 1) := by rw [y0, y1]; linear_combination -(z i) * hcs
  have z1 : z (i + 1) = -s * y i + c * y (i + 1) := by rw [y0, y1]; linear_combination -(z (i + 1)) * hcs
  have hcut1 : cut (set1 w.e (i + 1) (w.s * r)) m (i + 1) = w.s * r := by
    unfold cut
    by_cases h : i + 1 = m
    · rw [if_pos h, hs h]; ring
    · rw [if_neg h, set1_same]
  have hcuto : ∀ j, j ≠ i + 1 → cut (set1 w.e (i + 1) (w.s * r)) m j = cut w.e m j := by
    intro j h
    unfold cut
    rw [set1_ne _ _ h]
  have hcuti : cut w.e m i = s * r := by unfold cut; rw [if_neg (by omega), he]
  have hf : (w.step n i).form n m i y = triForm n (set1 w.d (i + 1) (w.c * w.p + s * (c * (w.c * w.e i) + s * w.d i))) (cut (set1 w.e (i + 1) (w.s * r)) m) y +
      (c * (c * w.d i - s * (w.c * w.e i)) - w.d i) * y i ^ 2 + 2 * (s * (c * w.d i - s * (w.c * w.e i)) - s * r) * y i * y (i + 1) +
      2 * predTerm (set1 w.e (i + 1) (w.s * r)) y i * ((c - 1) * y i + s * y (i + 1)) := by
    unfold Sweep.form Sweep.step
    simp only [hr', ← hc, ← hs']
    rw [set1_ne _ _ (show i ≠ i + 1 by omega), hcuto i (by omega), hcuti]
  rw [hf]
  unfold Sweep.form
  rw [show predTerm w.e z (i + 1) = w.e i * z i from rfl]
  cases i with
  | zero =>
    simp only [predTerm]
    unfold triForm
    rw [sum_diff2 (k := 0) (by omega) _ (fun j => w.d j * z j ^ 2 + 2 * cut w.e m j * z j * z (j + 1)) (fun j h1 h2 => by
      rw [set1_ne _ _ h2, hcuto j h2, yo j h1 h2, yo (j + 1) (by omega) (by omega)])]
    simp only [Nat.zero_add] at *
    rw [set1_same, set1_ne _ _ (show (0 : Nat) ≠ 1 by omega), hcut1, hcuto 0 (by omega), hcuti, yo 2 (by omega) (by omega), he, hp]
    rw [show (1 : Nat) + 1 = 2 from rfl]
    rw [z0, z1]
    linear_combination (-(2 * w.s * z 2 * r * y 1) - w.c * c * r * y 1 ^ 2) * hcs
  | succ k =>
    simp only [predTerm]
    unfold triForm
    rw [sum_diff3 (k := k) (by omega) _ (fun j => w.d j * z j ^ 2 + 2 * cut w.e m j * z j * z (j + 1)) (fun j h1 h2 h3 => by
      rw [set1_ne _ _ h3, hcuto j h3, yo j h2 h3, yo (j + 1) (by omega) (by omega)])]
    have hk : cut w.e m k = w.e k := by unfold cut; rw [if_neg (by omega)]
    rw [show k + 1 + 1 = k + 2 from rfl] at *
    rw [set1_same, set1_ne _ _ (show k ≠ k + 2 by omega), set1_ne _ _ (show k + 1 ≠ k + 2 by omega), set1_ne _ _ (show k ≠ k + 2 by omega), hcut1, hcuto k (by omega),
      hcuto (k + 1) (by omega), hcuti, yo k (by omega) (by omega), yo (k + 2 + 1) (by omega) (by omega), he, hp, hk]
    rw [z0, z1]
    linear_combination (-(2 * w.s * z (k + 2 + 1) * r * y (k + 2)) - w.c * c * r * y (k + 2) ^ 2) * hcs

theorem Sweep.step_inv {n l m i : Nat} {d e : Nat → ℝ} {V : Nat → Nat → ℝ} (hm : m < n) (hi : i < m) (he : e i ≠ 0) {w : Sweep ℝ}
    (h : w.Inv n l m d e V (i + 1)) : (w.step n i).Inv n l m d e V i := by
  have hei : w.e i = e i := h.e_lt i (by omega) hi
  set r := Real.sqrt (w.p ^ 2 + w.e i ^ 2) with hr
  have hr2 : r ^ 2 = w.p ^ 2 + w.e i ^ 2 := Real.sq_sqrt (by positivity)
  have hrpos : 0 < r := Real.sqrt_pos.2 (by rw [hei]; positivity)
  have hr' : myhypot w.p (w.e i) = r := myhypot_real _ _
  have hcs : (w.p / r) ^ 2 + (w.e i / r) ^ 2 = 1 := by
    rw [div_pow, div_pow, ← add_div, ← hr2]
    exact div_self (by positivity)
  have hs0 : i + 1 = m → w.s = 0 := fun h1 => (h.top h1).2
  have hcoord : ∀ x j, coord n (w.step n i).V x j = if j = i + 1 then w.e i / r * coord n w.V x i + w.p / r * coord n w.V x (i + 1) else
      if j = i then w.p / r * coord n w.V x i - w.e i / r * coord n w.V x (i + 1) else coord n w.V x j := by
    intro x j
    have := coord_rotate n i (w.p / r) (w.e i / r) w.V x j
    rw [← this]
    unfold Sweep.step
    simp only [hr']
  have ec : (w.step n i).c = w.p / r := by unfold Sweep.step; simp only [hr']
  have es : (w.step n i).s = w.e i / r := by unfold Sweep.step; simp only [hr']
  have ee : (w.step n i).e = set1 w.e (i + 1) (w.s * r) := by unfold Sweep.step; simp only [hr']
  have ep : (w.step n i).p = w.p / r * w.d i - w.e i / r * (w.c * w.e i) := by unfold Sweep.step; simp only [hr']
  have ed : ∀ j, j ≠ i + 1 → (w.step n i).d j = w.d j := fun j hj => set1_ne _ _ hj
  have ec2 : (w.step n i).c2 = w.c := rfl
  have ec3 : (w.step n i).c3 = w.c2 := rfl
  have es2 : (w.step n i).s2 = w.s := rfl
  have hc1 : w.c ^ 2 ≤ 1 := by have := h.cs; nlinarith [sq_nonneg w.s]
  constructor
  · rw [ec, es]; exact hcs
  · intro j hj; rw [ed j (by omega)]; exact h.d_le j (by omega)
  · intro j hj; rw [ed j (by omega)]; exact h.d_gt j hj
  · intro j hj hjm; rw [ee, set1_ne _ _ (by omega)]; exact h.e_lt j (by omega) hjm
  · intro j hj; rw [ee, set1_ne _ _ (by omega)]; exact h.e_gt j hj
  · intro _
    rw [ee]
    by_cases h1 : i + 1 = m
    · rw [← h1, set1_same, hs0 h1, zero_mul]
    · rw [set1_ne _ _ (by omega)]; exact h.e_m (by omega)
  · intro j hj hjm
    rw [ee]
    by_cases h1 : j = i + 1
    · rw [h1, set1_same]
      exact mul_ne_zero (h.s_ne (by omega)) hrpos.ne'
    · rw [set1_ne _ _ h1]; exact h.e_ne j (by omega) hjm
  · intro _
    rw [es, hei]
    exact div_ne_zero he hrpos.ne'
  · intro h1; omega
  · rw [ep, ec, es, ec2, h.d_le i (by omega), hei]; ring
  · rw [ec2]; exact hc1
  · intro _
    refine ⟨w.p, r, hrpos, ?_, ?_, ?_, ?_, ?_, ?_, ?_⟩
    · rw [ec]; field_simp
    · rw [es, hei]; field_simp
    · intro _; rw [ee, set1_same, es2]
    · rw [ec2, es2, ec3]; exact h.p_eq
    · rw [ec2, es2]; exact h.cs
    · rw [ec3]; exact h.c2_le
    · intro h1; rw [es2]; exact hs0 h1
  · intro x
    rw [Sweep.step_form hm hi w hrpos.ne' hr' hcs hs0 (coord n w.V x) _ (hcoord x)]
    exact h.form x
  · intro x
    rw [← h.norm x]
    unfold sqNorm
    rw [sum_diff2 (k := i) (by omega) _ (fun j => coord n w.V x j ^ 2) (fun j h1 h2 => by rw [hcoord, if_neg h2, if_neg h1])]
    rw [hcoord, hcoord, if_neg (show i ≠ i + 1 by omega), if_pos rfl, if_pos rfl]
    linear_combination (coord n w.V x i ^ 2 + coord n w.V x (i + 1) ^ 2) * hcs
  · intro x j hj
    rw [hcoord, if_neg (by omega), if_neg (by omega)]
    exact h.low x j (by omega)

/-- A whole sweep. -/
theorem sweep_inv {n l m : Nat} {d e : Nat → ℝ} {V : Nat → Nat → ℝ} (hm : m < n) (hl : l ≤ m) (he : ∀ j, l ≤ j → j < m → e j ≠ 0) :
    (forDown l m (Sweep.step n) { d := d, e := e, V := V, p := d m, c := lit 1, c2 := lit 1, c3 := lit 1, s := lit 0, s2 := lit 0 }).Inv n l m d e V l := by
  refine forDown_inv (fun i (w : Sweep ℝ) => w.Inv n l m d e V i) hl ?_ fun i w h1 h2 h => Sweep.step_inv hm h2 (he i h1 h2) h
  constructor
  · simp
  · exact fun _ _ => rfl
  · exact fun _ _ => rfl
  · exact fun _ _ _ => rfl
  · exact fun _ _ => rfl
  · intro h; omega
  · intro j h1 h2; omega
  · intro h; omega
  · intro _; simp
  · simp
  · simp
  · intro h; omega
  · intro x
    unfold Sweep.form
    simp [cut]
  · exact fun _ => rfl
  · exact fun _ _ _ => rfl

/-- The squares of the coordinates from `l` on. -/
def tailNorm (n l : Nat) (z : Nat → ℝ) : ℝ := ∑ j ∈ range n, if j < l then 0 else z j ^ 2

theorem tailNorm_eq (n l : Nat) (z : Nat → ℝ) : tailNorm n l z = sqNorm n z - ∑ j ∈ range n, if j < l then z j ^ 2 else 0 := by
  unfold tailNorm sqNorm
  rw [← sum_sub_distrib]
  refine sum_congr rfl fun j _ => ?_
  split <;> ring

/-- The form of the matrix at the beginning of round `l`: the shift has been subtracted from the diagonal elements from `l` on. -/
def QL.form (n l : Nat) (q : QL ℝ) (e z : Nat → ℝ) : ℝ := triForm n q.d e z + q.f * tailNorm n l z

/-- Wilkinson's shift: `P` is `p + r` in the program. -/
theorem shift_facts (p r : ℝ) (hr : r = if p < 0 then -Real.sqrt (p ^ 2 + 1) else Real.sqrt (p ^ 2 + 1)) :
    (p + r) ^ 2 - 2 * p * (p + r) - 1 = 0 ∧ 1 ≤ |p + r| := by
  have hs : Real.sqrt (p ^ 2 + 1) ^ 2 = p ^ 2 + 1 := Real.sq_sqrt (by positivity)
  have hs1 : 1 ≤ Real.sqrt (p ^ 2 + 1) := Real.one_le_sqrt.2 (by nlinarith [sq_nonneg p])
  by_cases h : p < 0
  · rw [if_pos h] at hr
    subst hr
    refine ⟨by linear_combination hs, ?_⟩
    rw [abs_of_neg (by linarith)]
    linarith
  · rw [if_neg h] at hr
    subst hr
    refine ⟨by linear_combination hs, ?_⟩
    rw [abs_of_nonneg (by linarith)]
    linarith

/-- What one round of the `do ... while` loop does. -/
structure QL.IterSpec (n l m : Nat) (q t : QL ℝ) : Prop where
  tst1 : t.tst1 = q.tst1
  e_low : ∀ j, j < l → t.e j = q.e j
  e_gt : ∀ j, m < j → t.e j = q.e j
  e_m : t.e m = 0
  e_ne : ∀ j, l < j → j < m → t.e j ≠ 0
  form : ∀ x, t.form n l t.e (coord n t.V x) = q.form n l (cut q.e m) (coord n q.V x)
  norm : ∀ x, sqNorm n (coord n t.V x) = sqNorm n (coord n q.V x)
  d_low : ∀ j, j < l → t.d j = q.d j
  done : l + 1 = m → t.e l = 0
  small : l + 1 < m → |t.e l| ≤ |q.e (l + 1)| ∧ Real.sqrt 2 * (t.e l ^ 2 * |t.e (l + 1)|) ≤ q.e l ^ 2 * |q.e (l + 1)|
  /-- The accumulated shift is an eigenvalue of a 2 by 2 submatrix. -/
  shift : ∃ u v : ℝ, 0 < u ^ 2 + v ^ 2 ∧
    t.f * (u ^ 2 + v ^ 2) = (q.d l + q.f) * u ^ 2 + 2 * q.e l * u * v + (q.d (l + 1) + q.f) * v ^ 2

/-- The contraction of the leading off-diagonal elements under Wilkinson's shift. -/
theorem wilkinson {D b x t s2 e1 r : ℝ} (hb : b ≠ 0) (hD : |b| ≤ |D|) (hcs : t ^ 2 + s2 ^ 2 = 1) (hx : x ^ 2 ≤ s2 ^ 2 * e1 ^ 2) (hr0 : 0 < r)
    (hr : r ^ 2 = b ^ 2 + (t * D - x) ^ 2) :
    |b / r * (-(b / r) * x * b / D)| ≤ |e1| ∧
    Real.sqrt 2 * ((b / r * (-(b / r) * x * b / D)) ^ 2 * |s2 * r|) ≤ b ^ 2 * |e1| := by
  have hD0 : D ≠ 0 := fun h => hb (abs_eq_zero.1 (le_antisymm (by rw [h, abs_zero] at hD; exact hD) (abs_nonneg b)))
  have hbr : (b / r) ^ 2 ≤ 1 := by
    rw [div_pow, div_le_one (by positivity), hr]
    nlinarith [sq_nonneg (t * D - x)]
  have hbr1 : |b / r| ≤ 1 := by
    rw [← sq_abs] at hbr
    nlinarith [abs_nonneg (b / r)]
  have hbD : |b / D| ≤ 1 := by
    rw [abs_div, div_le_one (abs_pos.2 hD0)]
    exact hD
  have hs2 : |s2| ≤ 1 := by
    have : |s2| ^ 2 ≤ 1 := by rw [sq_abs]; nlinarith [sq_nonneg t]
    nlinarith [abs_nonneg s2]
  have hx1 : |x| ≤ |e1| := by
    refine sq_le_sq.1 ?_
    have : s2 ^ 2 * e1 ^ 2 ≤ 1 * e1 ^ 2 := mul_le_mul_of_nonneg_right (by nlinarith [sq_nonneg t]) (sq_nonneg _)
    linarith
  have hp : b / r * (-(b / r) * x * b / D) = -((b / r) ^ 2 * (x * (b / D))) := by ring
  constructor
  · rw [hp, abs_neg, abs_mul, abs_mul, abs_of_nonneg (sq_nonneg _)]
    calc (b / r) ^ 2 * (|x| * |b / D|) ≤ 1 * (|e1| * 1) := by
          refine mul_le_mul hbr (mul_le_mul hx1 hbD (abs_nonneg _) (abs_nonneg _)) (by positivity) (by positivity)
      _ = |e1| := by ring
  · -- the final `p`, squared
    set P := (b / r) * x * b / D with hP
    have hPP : (b / r * (-(b / r) * x * b / D)) ^ 2 = (b / r) ^ 2 * P ^ 2 := by rw [hP]; ring
    have hmain : Real.sqrt 2 * P ^ 2 ≤ |b| * |e1| := by
      by_cases he1 : e1 = 0
      · have hx0 : x = 0 := by
          rw [he1, abs_zero] at hx1
          exact abs_eq_zero.1 (le_antisymm hx1 (abs_nonneg _))
        rw [hP, hx0, he1]
        simp
      · have hb2 : 0 < b ^ 2 := by positivity
        have hD2 : 0 < D ^ 2 := by positivity
        have hbD2 : b ^ 2 ≤ D ^ 2 := by rw [← sq_abs b, ← sq_abs D]; exact pow_le_pow_left₀ (abs_nonneg _) hD 2
        have hr2 : 0 < r ^ 2 := by positivity
        have he2 : 0 < e1 ^ 2 := by positivity
        -- `P^2 (1 / (2 b^2) + 1 / e1^2) ≤ 1`
        have hP2 : P ^ 2 * (D ^ 2 * r ^ 2) = b ^ 4 * x ^ 2 := by rw [hP]; field_simp
        have key : P ^ 2 * (e1 ^ 2 + 2 * b ^ 2) ≤ 2 * b ^ 2 * e1 ^ 2 := by
          have h1 : b ^ 2 * x ^ 2 * (e1 ^ 2 + 2 * b ^ 2) ≤ 2 * e1 ^ 2 * (D ^ 2 * r ^ 2) := by
            -- from `x^2 (b^2 / (b^2 + D^2) + b^2 / e1^2) ≤ r^2`
            have h2 : (b ^ 2 + D ^ 2) * (b ^ 2 * t ^ 2 + (t * D - x) ^ 2) - b ^ 2 * x ^ 2 = ((b ^ 2 + D ^ 2) * t - D * x) ^ 2 := by ring
            have h3 : b ^ 2 * x ^ 2 ≤ (b ^ 2 + D ^ 2) * (b ^ 2 * t ^ 2 + (t * D - x) ^ 2) := by nlinarith [sq_nonneg ((b ^ 2 + D ^ 2) * t - D * x)]
            have h4 : b ^ 2 * t ^ 2 + (t * D - x) ^ 2 = r ^ 2 - b ^ 2 * s2 ^ 2 := by rw [hr]; linear_combination b ^ 2 * hcs
            rw [h4] at h3
            have h5 : b ^ 2 * x ^ 2 * e1 ^ 2 ≤ (b ^ 2 + D ^ 2) * (r ^ 2 * e1 ^ 2 - b ^ 2 * x ^ 2) := by
              have e5 : b ^ 2 * x ^ 2 * e1 ^ 2 ≤ (b ^ 2 + D ^ 2) * (r ^ 2 - b ^ 2 * s2 ^ 2) * e1 ^ 2 := mul_le_mul_of_nonneg_right h3 he2.le
              have e6 : (b ^ 2 + D ^ 2) * b ^ 2 * x ^ 2 ≤ (b ^ 2 + D ^ 2) * b ^ 2 * (s2 ^ 2 * e1 ^ 2) := mul_le_mul_of_nonneg_left hx (by positivity)
              nlinarith
            have h6 : 0 ≤ r ^ 2 * e1 ^ 2 - b ^ 2 * x ^ 2 := by
              by_contra hneg
              push Not at hneg
              have : (b ^ 2 + D ^ 2) * (r ^ 2 * e1 ^ 2 - b ^ 2 * x ^ 2) < 0 := mul_neg_of_pos_of_neg (by positivity) hneg
              have : 0 ≤ b ^ 2 * x ^ 2 * e1 ^ 2 := by positivity
              linarith
            have h7 : (b ^ 2 + D ^ 2) * (r ^ 2 * e1 ^ 2 - b ^ 2 * x ^ 2) ≤ 2 * D ^ 2 * (r ^ 2 * e1 ^ 2 - b ^ 2 * x ^ 2) :=
              mul_le_mul_of_nonneg_right (by linarith) h6
            have h8 : b ^ 2 * (b ^ 2 * x ^ 2) ≤ D ^ 2 * (b ^ 2 * x ^ 2) := mul_le_mul_of_nonneg_right hbD2 (by positivity)
            nlinarith
          have h9 : P ^ 2 * (e1 ^ 2 + 2 * b ^ 2) * (D ^ 2 * r ^ 2) ≤ 2 * b ^ 2 * e1 ^ 2 * (D ^ 2 * r ^ 2) := by
            calc P ^ 2 * (e1 ^ 2 + 2 * b ^ 2) * (D ^ 2 * r ^ 2) = b ^ 2 * (b ^ 2 * x ^ 2 * (e1 ^ 2 + 2 * b ^ 2)) := by linear_combination (e1 ^ 2 + 2 * b ^ 2) * hP2
              _ ≤ b ^ 2 * (2 * e1 ^ 2 * (D ^ 2 * r ^ 2)) := mul_le_mul_of_nonneg_left h1 hb2.le
              _ = 2 * b ^ 2 * e1 ^ 2 * (D ^ 2 * r ^ 2) := by ring
          exact le_of_mul_le_mul_right h9 (by positivity)
        have hs : Real.sqrt 2 ^ 2 = 2 := Real.sq_sqrt (by norm_num)
        have ham : 2 * Real.sqrt 2 * (|b| * |e1|) ≤ e1 ^ 2 + 2 * b ^ 2 := by
          have h0 := sq_nonneg (|e1| - Real.sqrt 2 * |b|)
          rw [sub_sq, mul_pow, hs, sq_abs, sq_abs] at h0
          linarith
        have h10 : P ^ 2 * (2 * Real.sqrt 2 * (|b| * |e1|)) ≤ 2 * (|b| * |e1|) ^ 2 := by
          calc P ^ 2 * (2 * Real.sqrt 2 * (|b| * |e1|)) ≤ P ^ 2 * (e1 ^ 2 + 2 * b ^ 2) := mul_le_mul_of_nonneg_left ham (sq_nonneg _)
            _ ≤ 2 * b ^ 2 * e1 ^ 2 := key
            _ = 2 * (|b| * |e1|) ^ 2 := by rw [mul_pow, sq_abs, sq_abs]; ring
        have hpos : 0 < |b| * |e1| := mul_pos (abs_pos.2 hb) (abs_pos.2 he1)
        refine le_of_mul_le_mul_right (?_ : _ * (2 * (|b| * |e1|)) ≤ _ * (2 * (|b| * |e1|))) (by positivity)
        calc Real.sqrt 2 * P ^ 2 * (2 * (|b| * |e1|)) = P ^ 2 * (2 * Real.sqrt 2 * (|b| * |e1|)) := by ring
          _ ≤ 2 * (|b| * |e1|) ^ 2 := h10
          _ = _ := by ring
    rw [hPP, abs_mul, abs_of_pos hr0]
    have h11 : (b / r) ^ 2 * r = |b / r| * |b| := by
      rw [← sq_abs, abs_div, abs_of_pos hr0]
      field_simp
    calc Real.sqrt 2 * ((b / r) ^ 2 * P ^ 2 * (|s2| * r)) = ((b / r) ^ 2 * r) * |s2| * (Real.sqrt 2 * P ^ 2) := by ring
      _ = |b / r| * |s2| * (|b| * (Real.sqrt 2 * P ^ 2)) := by rw [h11]; ring
      _ ≤ 1 * 1 * (|b| * (|b| * |e1|)) := by
          refine mul_le_mul (mul_le_mul hbr1 hs2 (abs_nonneg _) (by norm_num)) (mul_le_mul_of_nonneg_left hmain (abs_nonneg _)) (by positivity) (by norm_num)
      _ = b ^ 2 * |e1| := by rw [← sq_abs b]; ring

theorem iter_spec {n l m : Nat} (hm : m < n) (hl : l < m) {q : QL ℝ} (he : ∀ j, l ≤ j → j < m → q.e j ≠ 0) (hlow : ∀ j, j < l → q.e j = 0) :
    QL.IterSpec n l m q (q.iter n l m) := by
  -- the shift
  have hel : q.e l ≠ 0 := he l le_rfl hl
  set p := (q.d (l + 1) - q.d l) / (2 * q.e l) with hp
  set r := (if p < 0 then -Real.sqrt (p ^ 2 + 1) else Real.sqrt (p ^ 2 + 1)) with hr
  obtain ⟨hP, hP1⟩ := shift_facts p r hr
  set P := p + r with hPd
  have hP0 : P ≠ 0 := fun h => by rw [h, abs_zero] at hP1; linarith
  have hpe : 2 * p * q.e l = q.d (l + 1) - q.d l := by rw [hp]; field_simp
  set h := q.d l - q.e l / P with hh
  have hdl : q.e l / P = q.d l - h := by rw [hh]; ring
  have hdl1 : q.e l * P = q.d (l + 1) - h := by
    have : q.e l * P - q.e l / P = 2 * p * q.e l := by
      field_simp
      linear_combination hP
    rw [hh]; linarith
  set d1 : Nat → ℝ := fun j => if l ≤ j ∧ j < n then q.d j - h else q.d j with hd1
  have hd1l : d1 l = q.e l / P := by rw [hd1]; dsimp only; rw [if_pos (by omega), hdl]
  have hd1l1 : d1 (l + 1) = q.e l * P := by rw [hd1]; dsimp only; rw [if_pos (by omega), hdl1]
  have hdd : forUp (l + 2) n (fun i d => set1 d i (d i - h)) (set1 (set1 q.d l (q.e l / P)) (l + 1) (q.e l * P)) = d1 := by
    rw [forUp_set1 (l + 2) n (fun _ x => x - h)]
    funext j
    by_cases h1 : l + 2 ≤ j ∧ j < n
    · rw [if_pos h1, set1_ne _ _ (by omega), set1_ne _ _ (by omega), hd1]
      dsimp only
      rw [if_pos (by omega)]
    · rw [if_neg h1]
      by_cases h2 : j = l + 1
      · rw [h2, set1_same, hd1l1]
      · rw [set1_ne _ _ h2]
        by_cases h3 : j = l
        · rw [h3, set1_same, hd1l]
        · rw [set1_ne _ _ h3, hd1]
          dsimp only
          rw [if_neg (by omega)]
  -- the sweep
  set w := forDown l m (Sweep.step n) { d := d1, e := q.e, V := q.V, p := d1 m, c := lit 1, c2 := lit 1, c3 := lit 1, s := lit 0, s2 := lit 0 } with hw
  have hinv : w.Inv n l m d1 q.e q.V l := sweep_inv hm hl.le he
  have hwe : w.e l = q.e l := hinv.e_lt l le_rfl hl
  have ht : q.iter n l m = { d := set1 w.d l (w.c * (-w.s * w.s2 * w.c3 * q.e (l + 1) * q.e l / (q.e l * P))),
                             e := set1 w.e l (w.s * (-w.s * w.s2 * w.c3 * q.e (l + 1) * q.e l / (q.e l * P))), V := w.V, f := q.f + h, tst1 := q.tst1 } := by
    unfold QL.iter
    simp only [lt_real, lit_real, myhypot_real, Rat.cast_zero, Rat.cast_one, Rat.cast_ofNat, decide_eq_true_eq, one_pow, set1_same]
    rw [← hp, ← hr, ← hPd]
    rw [show set1 (set1 q.d l (q.e l / P)) (l + 1) (q.e l * P) l = q.e l / P by rw [set1_ne _ _ (by omega), set1_same], ← hh, hdd]
    have hw' : forDown l m (Sweep.step n) { d := d1, e := q.e, V := q.V, p := d1 m, c := 1, c2 := 1, c3 := 1, s := 0, s2 := 0 } = w := by
      rw [hw]; simp only [lit_real, Rat.cast_zero, Rat.cast_one]
    rw [hw', hwe]
  obtain ⟨pp, rr, hrr, hcr, hsr, her, hpp, hcs2, hc3, hs2m⟩ := hinv.prev hl
  set X := w.s2 * w.c3 * q.e (l + 1) with hX
  rw [hd1l1] at hpp
  -- the last `p` is the one of the regular recursion
  have hfin : -w.s * w.s2 * w.c3 * q.e (l + 1) * q.e l / (q.e l * P) = w.p := by
    rw [hinv.p_eq, hd1l]
    have h1 : w.c * rr = w.c2 * (q.e l * P) - X := by rw [hcr, hpp]
    have h2 : -w.s * w.s2 * w.c3 * q.e (l + 1) * q.e l / (q.e l * P) = -w.s * X / P := by rw [hX]; field_simp
    rw [h2]
    have h3 : X = w.c2 * (q.e l * P) - w.c * rr := by linarith
    rw [h3, ← hsr]
    field_simp
    ring
  rw [ht, hfin]
  have hlt : w.e m = 0 := hinv.e_m hl
  constructor
  · rfl
  · intro j hj
    show set1 w.e l _ j = _
    rw [set1_ne _ _ (by omega)]
    exact hinv.e_lt j (by omega) (by omega)
  · intro j hj
    show set1 w.e l _ j = _
    rw [set1_ne _ _ (by omega)]
    exact hinv.e_gt j hj
  · show set1 w.e l _ m = _
    rw [set1_ne _ _ (by omega)]
    exact hlt
  · intro j h1 h2
    show set1 w.e l _ j ≠ _
    rw [set1_ne _ _ (by omega)]
    exact hinv.e_ne j h1 h2
  · intro x
    set z := coord n w.V x with hz
    set z0 := coord n q.V x with hz0
    have htail : tailNorm n l z = tailNorm n l z0 := by
      rw [tailNorm_eq, tailNorm_eq, hinv.norm x]
      congr 1
      refine sum_congr rfl fun j _ => ?_
      split
      · rename_i hj
        rw [hz, hinv.low x j hj]
      · rfl
    have hshift : triForm n d1 (cut q.e m) z0 = triForm n q.d (cut q.e m) z0 - h * tailNorm n l z0 := by
      unfold triForm tailNorm
      rw [mul_sum, ← sum_sub_distrib]
      refine sum_congr rfl fun j hj => ?_
      rw [hd1]
      have hj := mem_range.1 hj
      dsimp only
      by_cases h1 : j < l
      · rw [if_neg (by omega), if_pos h1]; ring
      · rw [if_pos (by omega), if_neg h1]; ring
    have hsweep := hinv.form x
    unfold Sweep.form at hsweep
    have hpred : predTerm w.e z l = 0 := by
      cases l with
      | zero => rfl
      | succ k =>
        show w.e k * z k = 0
        rw [hinv.e_lt k (by omega) (by omega), hlow k (by omega), zero_mul]
    have hcutl : cut w.e m l = w.e l := by unfold cut; rw [if_neg (by omega)]
    rw [hpred, hcutl] at hsweep
    have hnew : triForm n (set1 w.d l (w.c * w.p)) (set1 w.e l (w.s * w.p)) z =
        triForm n w.d (cut w.e m) z + (w.c * w.p - w.d l) * z l ^ 2 + 2 * (w.s * w.p - w.e l) * z l * z (l + 1) := by
      unfold triForm
      rw [sum_diff2 (k := l) (by omega) _ (fun j => w.d j * z j ^ 2 + 2 * cut w.e m j * z j * z (j + 1)) (fun j h1 h2 => by
        rw [set1_ne _ _ h1, set1_ne _ _ h1]
        unfold cut
        by_cases h3 : j = m
        · rw [if_pos h3, h3, hlt]
        · rw [if_neg h3])]
      rw [set1_same, set1_same, set1_ne _ _ (by omega), set1_ne _ _ (by omega), hcutl]
      have : cut w.e m (l + 1) = w.e (l + 1) := by
        unfold cut
        by_cases h3 : l + 1 = m
        · rw [if_pos h3, h3, hlt]
        · rw [if_neg h3]
      rw [this]
      ring
    show triForm n (set1 w.d l (w.c * w.p)) (set1 w.e l (w.s * w.p)) z + (q.f + h) * tailNorm n l z = triForm n q.d (cut q.e m) z0 + q.f * tailNorm n l z0
    rw [hnew, htail]
    linarith
  · exact hinv.norm
  · intro j hj
    show set1 w.d l _ j = _
    rw [set1_ne _ _ (by omega), hinv.d_le j (by omega), hd1]
    dsimp only
    rw [if_neg (by omega)]
  · intro h1
    show set1 w.e l _ l = 0
    rw [set1_same, ← hfin, hs2m h1]
    simp
  · intro h1
    have e1 : (set1 w.e l (w.s * w.p)) l = w.s * w.p := set1_same _ _ _
    have e2 : (set1 w.e l (w.s * w.p)) (l + 1) = w.s2 * rr := by rw [set1_ne _ _ (by omega)]; exact her h1
    show |(set1 w.e l (w.s * w.p)) l| ≤ _ ∧ Real.sqrt 2 * ((set1 w.e l (w.s * w.p)) l ^ 2 * |(set1 w.e l (w.s * w.p)) (l + 1)|) ≤ _
    rw [e1, e2]
    have hs : w.s = q.e l / rr := by rw [← hsr]; field_simp
    have hpX : w.p = -(q.e l / rr) * X * q.e l / (q.e l * P) := by rw [← hfin, hs, hX]; ring
    have hrr2 : rr ^ 2 = q.e l ^ 2 + (w.c2 * (q.e l * P) - X) ^ 2 := by
      have h3 : w.c * rr = w.c2 * (q.e l * P) - X := by rw [hcr, hpp]
      rw [← h3, ← hsr]
      linear_combination -(rr ^ 2) * hinv.cs
    have hXle : X ^ 2 ≤ w.s2 ^ 2 * q.e (l + 1) ^ 2 := by
      rw [hX]
      calc (w.s2 * w.c3 * q.e (l + 1)) ^ 2 = w.s2 ^ 2 * q.e (l + 1) ^ 2 * w.c3 ^ 2 := by ring
        _ ≤ w.s2 ^ 2 * q.e (l + 1) ^ 2 * 1 := mul_le_mul_of_nonneg_left hc3 (by positivity)
        _ = _ := mul_one _
    have hDb : |q.e l| ≤ |q.e l * P| := by
      rw [abs_mul]
      exact le_mul_of_one_le_right (abs_nonneg _) hP1
    have := wilkinson (D := q.e l * P) hel hDb hcs2 hXle hrr hrr2
    rw [hpX, hs]
    exact this
  · refine ⟨P, -1, by nlinarith [sq_nonneg P], ?_⟩
    show (q.f + h) * _ = _
    have h4 : q.e l = (q.d l - h) * P := by rw [← hdl]; field_simp
    have h5 := hdl1
    rw [h4] at h5 ⊢
    linear_combination h5

end Spot
