import Verif.Lemmas.CmaQL
import Mathlib.LinearAlgebra.Matrix.NonsingularInverse
import Mathlib.LinearAlgebra.Matrix.DotProduct

/-! # The QL iteration in exact arithmetic: it ends, and what it returns -/

namespace Spot

open Finset

/-! ## Orthogonal matrices -/

/-- `V` as a matrix. -/
def matOf (n : Nat) (V : Nat → Nat → ℝ) : Matrix (Fin n) (Fin n) ℝ := Matrix.of fun i j => V i j

theorem coord_eq (n : Nat) (V : Nat → Nat → ℝ) (x : Nat → ℝ) (j : Fin n) :
    coord n V x j = ((matOf n V).transpose.mulVec fun k : Fin n => x k) j := by
  unfold coord Matrix.mulVec _root_.dotProduct matOf
  rw [Finset.sum_range]
  rfl

theorem sqNorm_eq (n : Nat) (x : Nat → ℝ) : sqNorm n x = (fun k : Fin n => x k) ⬝ᵥ fun k : Fin n => x k := by
  unfold sqNorm _root_.dotProduct
  rw [Finset.sum_range]
  exact sum_congr rfl fun _ _ => by ring

/-- A vector as a function of all indices. -/
def extend {n : Nat} (v : Fin n → ℝ) (k : Nat) : ℝ := if h : k < n then v ⟨k, h⟩ else 0

theorem extend_fin {n : Nat} (v : Fin n → ℝ) : (fun k : Fin n => extend v k) = v := by
  funext k
  unfold extend
  rw [dif_pos k.2]

/-- The map to the coordinates preserves the norm iff the columns are orthonormal. -/
theorem orth_matrix {n : Nat} {V : Nat → Nat → ℝ} (h : ∀ x, sqNorm n (coord n V x) = sqNorm n x) : (matOf n V).transpose * matOf n V = 1 := by
  have h1 : ∀ v : Fin n → ℝ, v ⬝ᵥ ((matOf n V * (matOf n V).transpose).mulVec v) = v ⬝ᵥ v := by
    intro v
    have := h (extend v)
    rw [sqNorm_eq, sqNorm_eq, extend_fin] at this
    rw [← this]
    have e : (fun k : Fin n => coord n V (extend v) k) = (matOf n V).transpose.mulVec v := by
      funext k
      rw [coord_eq, extend_fin]
    rw [e, Matrix.dotProduct_mulVec _ (matOf n V).transpose v, Matrix.vecMul_transpose, Matrix.mulVec_mulVec, _root_.dotProduct_comm]
  have h2 : matOf n V * (matOf n V).transpose = 1 := by
    set M := matOf n V * (matOf n V).transpose with hM
    have hsym : ∀ i j, M i j = M j i := by
      intro i j
      have : M.transpose = M := by rw [hM, Matrix.transpose_mul, Matrix.transpose_transpose]
      exact congrFun (congrFun this j) i
    have hq : ∀ i j, (Pi.single i 1 : Fin n → ℝ) ⬝ᵥ M.mulVec (Pi.single j 1) = M i j := by
      intro i j
      simp
    ext i j
    have hi := h1 (Pi.single i 1)
    have hj := h1 (Pi.single j 1)
    have hij := h1 (Pi.single i 1 + Pi.single j 1)
    simp only [Matrix.mulVec_add, _root_.add_dotProduct, _root_.dotProduct_add, hq] at hi hj hij
    have e1 : (Pi.single i 1 : Fin n → ℝ) ⬝ᵥ Pi.single i 1 = 1 := by simp
    have e2 : (Pi.single j 1 : Fin n → ℝ) ⬝ᵥ Pi.single j 1 = 1 := by simp
    have e3 : (Pi.single i 1 : Fin n → ℝ) ⬝ᵥ Pi.single j 1 = (1 : Matrix (Fin n) (Fin n) ℝ) i j := by
      rw [Matrix.one_apply]
      by_cases hij : i = j
      · simp [hij]
      · simp [hij]
    have e4 : (Pi.single j 1 : Fin n → ℝ) ⬝ᵥ Pi.single i 1 = (1 : Matrix (Fin n) (Fin n) ℝ) i j := by rw [_root_.dotProduct_comm, e3]
    rw [e1] at hi
    rw [e2] at hj
    rw [e1, e2, e3, e4, hsym j i, hi, hj] at hij
    linarith
  exact mul_eq_one_comm.1 h2

theorem coord_surj {n : Nat} {V : Nat → Nat → ℝ} (h : ∀ x, sqNorm n (coord n V x) = sqNorm n x) (z : Nat → ℝ) : ∃ x, ∀ j, j < n → coord n V x j = z j := by
  refine ⟨extend ((matOf n V).mulVec fun k => z k), fun j hj => ?_⟩
  have := coord_eq n V (extend ((matOf n V).mulVec fun k : Fin n => z k)) ⟨j, hj⟩
  rw [extend_fin, Matrix.mulVec_mulVec, orth_matrix h, Matrix.one_mulVec] at this
  exact this

theorem triForm_congr {n : Nat} {d e z z' : Nat → ℝ} (hl : e (n - 1) = 0) (h : ∀ j, j < n → z j = z' j) : triForm n d e z = triForm n d e z' := by
  unfold triForm
  refine sum_congr rfl fun j hj => ?_
  have hj := mem_range.1 hj
  rw [h j hj]
  by_cases h1 : j + 1 < n
  · rw [h (j + 1) h1]
  · rw [show j = n - 1 by omega, hl]; ring

theorem tailNorm_congr {n l : Nat} {z z' : Nat → ℝ} (h : ∀ j, j < n → z j = z' j) : tailNorm n l z = tailNorm n l z' := by
  unfold tailNorm
  exact sum_congr rfl fun j hj => by rw [h j (mem_range.1 hj)]

theorem sqNorm_congr {n : Nat} {z z' : Nat → ℝ} (h : ∀ j, j < n → z j = z' j) : sqNorm n z = sqNorm n z' := by
  unfold sqNorm
  exact sum_congr rfl fun j hj => by rw [h j (mem_range.1 hj)]

/-- A bound of the form, for all coordinates. -/
theorem form_bound {n l : Nat} {q : QL ℝ} {e : Nat → ℝ} (hl : e (n - 1) = 0) (ho : ∀ x, sqNorm n (coord n q.V x) = sqNorm n x) {B : ℝ}
    (hB : ∀ x, |q.form n l e (coord n q.V x)| ≤ B * sqNorm n x) (z : Nat → ℝ) : |q.form n l e z| ≤ B * sqNorm n z := by
  obtain ⟨x, hx⟩ := coord_surj ho z
  have h1 := hB x
  unfold QL.form at h1 ⊢
  rw [triForm_congr hl hx, tailNorm_congr hx, ← ho x, sqNorm_congr hx] at h1
  exact h1

/-- The vector with the elements `u` at `k` and `v` at `k + 1`. -/
def twoVec (k : Nat) (u v : ℝ) (j : Nat) : ℝ := if j = k then u else if j = k + 1 then v else 0

theorem twoVec_sq {n k : Nat} (hk : k + 1 < n) (u v : ℝ) : sqNorm n (twoVec k u v) = u ^ 2 + v ^ 2 := by
  unfold sqNorm
  rw [sum_diff2 hk _ (fun _ => 0) (fun j h1 h2 => by simp [twoVec, h1, h2])]
  simp [twoVec]

theorem twoVec_form {n l k : Nat} (hk : k + 1 < n) (hl : l ≤ k) (q : QL ℝ) (e : Nat → ℝ) (u v : ℝ) :
    q.form n l e (twoVec k u v) = (q.d k + q.f) * u ^ 2 + 2 * e k * u * v + (q.d (k + 1) + q.f) * v ^ 2 := by
  have h1 : triForm n q.d e (twoVec k u v) = q.d k * u ^ 2 + 2 * e k * u * v + q.d (k + 1) * v ^ 2 := by
    unfold triForm
    rw [sum_diff2 hk _ (fun _ => 0) (fun j h1 h2 => by simp [twoVec, h1, h2])]
    simp [twoVec, show k + 1 + 1 ≠ k by omega]
  have h2 : tailNorm n l (twoVec k u v) = u ^ 2 + v ^ 2 := by
    rw [← twoVec_sq hk u v]
    unfold tailNorm sqNorm
    refine sum_congr rfl fun j _ => ?_
    by_cases hj : j < l
    · rw [if_pos hj]; simp [twoVec, show j ≠ k by omega, show j ≠ k + 1 by omega]
    · rw [if_neg hj]
  unfold QL.form
  rw [h1, h2]
  ring

/-- Every element of a matrix is bounded by a bound of its form. -/
theorem form_elements {n l : Nat} {q : QL ℝ} {e : Nat → ℝ} {B : ℝ} (hB : ∀ z, |q.form n l e z| ≤ B * sqNorm n z) (hl : l < n) (hlast : e (n - 1) = 0) :
    |q.d l + q.f| ≤ B ∧ |e l| ≤ B := by
  have hB0 : 0 ≤ B := by
    have := (abs_nonneg _).trans (hB fun j => if j = l then 1 else 0)
    have h1 : sqNorm n (fun j => if j = l then (1 : ℝ) else 0) = 1 := by
      unfold sqNorm
      rw [sum_eq_single l (fun j _ h => by simp [h]) (fun h => absurd (mem_range.2 hl) h)]
      simp
    rw [h1, mul_one] at this
    exact this
  by_cases h : l + 1 < n
  · have h1 := hB (twoVec l 1 0)
    rw [twoVec_form h le_rfl, twoVec_sq h] at h1
    have h2 := hB (twoVec l 1 1)
    rw [twoVec_form h le_rfl, twoVec_sq h] at h2
    have h3 := hB (twoVec l 1 (-1))
    rw [twoVec_form h le_rfl, twoVec_sq h] at h3
    rw [abs_le] at h1 h2 h3
    constructor <;> rw [abs_le] <;> constructor <;> linarith
  · have hln : l = n - 1 := by omega
    rw [hln, hlast, abs_zero]
    refine ⟨?_, hB0⟩
    have h1 := hB fun j => if j = l then 1 else 0
    have e1 : sqNorm n (fun j => if j = l then (1 : ℝ) else 0) = 1 := by
      unfold sqNorm
      rw [sum_eq_single l (fun j _ h => by simp [h]) (fun h => absurd (mem_range.2 hl) h)]
      simp
    have e2 : triForm n q.d e (fun j => if j = l then (1 : ℝ) else 0) = q.d l := by
      unfold triForm
      rw [sum_eq_single l (fun j _ h => by simp [h]) (fun h => absurd (mem_range.2 hl) h)]
      simp
    have e3 : tailNorm n l (fun j => if j = l then (1 : ℝ) else 0) = 1 := by
      unfold tailNorm
      rw [sum_eq_single l (fun j _ h => by simp [h]) (fun h => absurd (mem_range.2 hl) h)]
      simp
    unfold QL.form at h1
    rw [e1, e2, e3, mul_one, mul_one] at h1
    rw [← hln]
    exact h1

/-! ## The `do ... while` loop -/

/-- More rounds than needed make no difference. -/
theorem loop_mono {n l m : Nat} : ∀ {fuel fuel' : Nat} {q t : QL ℝ}, fuel ≤ fuel' → QL.loop n l m fuel q = some t → QL.loop n l m fuel' q = some t := by
  intro fuel
  induction fuel with
  | zero => intro _ _ _ _ h; cases h
  | succ k ih =>
    intro fuel' q t hle h
    obtain ⟨k', rfl⟩ : ∃ k', fuel' = k' + 1 := ⟨fuel' - 1, by omega⟩
    unfold QL.loop at h ⊢
    dsimp only at h ⊢
    split at h
    · rename_i hc
      rw [if_pos hc]
      exact ih (by omega) h
    · rename_i hc
      rw [if_neg hc]
      exact h

/-- What the `do ... while` loop has done when it ends. -/
structure QL.LoopSpec (n l m : Nat) (q t : QL ℝ) : Prop where
  tst1 : t.tst1 = q.tst1
  e_low : ∀ j, j < l → t.e j = q.e j
  e_gt : ∀ j, m < j → t.e j = q.e j
  e_m : t.e m = 0
  form : ∀ x, t.form n l t.e (coord n t.V x) = q.form n l (cut q.e m) (coord n q.V x)
  norm : ∀ x, sqNorm n (coord n t.V x) = sqNorm n (coord n q.V x)
  d_low : ∀ j, j < l → t.d j = q.d j
  small : |t.e l| ≤ qlEps * q.tst1
  shift : ∀ B, (∀ x, sqNorm n (coord n q.V x) = sqNorm n x) → (∀ x, |q.form n l (cut q.e m) (coord n q.V x)| ≤ B * sqNorm n x) → |t.f| ≤ B

theorem cut_of_zero {e : Nat → ℝ} {m : Nat} (h : e m = 0) : cut e m = e := by
  funext j
  unfold cut
  by_cases hj : j = m
  · rw [if_pos hj, hj, h]
  · rw [if_neg hj]

theorem iter_shift {n l m : Nat} (hm : m < n) (hl : l < m) {q t : QL ℝ} (h : QL.IterSpec n l m q t) (hlast : q.e (n - 1) = 0) {B : ℝ}
    (ho : ∀ x, sqNorm n (coord n q.V x) = sqNorm n x) (hB : ∀ x, |q.form n l (cut q.e m) (coord n q.V x)| ≤ B * sqNorm n x) : |t.f| ≤ B := by
  obtain ⟨u, v, h1, h2⟩ := h.shift
  have hlast' : cut q.e m (n - 1) = 0 := by unfold cut; split <;> simp [hlast]
  have h3 := form_bound hlast' ho hB (twoVec l u v)
  rw [twoVec_form (by omega) le_rfl, twoVec_sq (by omega)] at h3
  have hcut : cut q.e m l = q.e l := by unfold cut; rw [if_neg (by omega)]
  rw [hcut, ← h2, abs_mul, abs_of_pos h1] at h3
  exact le_of_mul_le_mul_right h3 h1

theorem loop_ends {n l m : Nat} (hm : m < n) (hl : l < m) (q : QL ℝ) (he : ∀ j, l ≤ j → j < m → q.e j ≠ 0) (hlow : ∀ j, j < l → q.e j = 0)
    (hlast : q.e (n - 1) = 0) (htst : 0 < q.tst1) : ∃ fuel t, QL.loop n l m fuel q = some t ∧ QL.LoopSpec n l m q t := by
  set tol := (qlEps : ℝ) * q.tst1 with htol
  have heps : (0 : ℝ) < qlEps := by unfold qlEps; rw [lit_real]; positivity
  have htol0 : 0 < tol := mul_pos heps htst
  have hs2 : (1 : ℝ) < Real.sqrt 2 := by rw [Real.lt_sqrt (by norm_num)]; norm_num
  -- the loop ends within `k` rounds if the product of the leading elements is small enough
  have key : ∀ (k : Nat) (q : QL ℝ), q.tst1 * qlEps = tol → (∀ j, l ≤ j → j < m → q.e j ≠ 0) → (∀ j, j < l → q.e j = 0) → q.e (n - 1) = 0 →
      (l + 1 < m → q.e l ^ 2 * |q.e (l + 1)| ≤ tol ^ 3 * Real.sqrt 2 ^ k) →
      ∃ fuel t, QL.loop n l m fuel q = some t ∧ QL.LoopSpec n l m q t := by
    intro k
    induction k with
    | zero =>
      intro q hq he hlow hlast hk
      -- one round if `e[l]` is larger than the tolerance, otherwise two
      have hI := iter_spec hm hl he hlow
      have hsmall : |(q.iter n l m).e l| ≤ tol ∨ |q.e l| ≤ tol := by
        by_cases hml : l + 1 < m
        · have h1 := hk hml
          rw [pow_zero, mul_one] at h1
          by_cases h2 : |q.e l| ≤ tol
          · exact .inr h2
          · left
            push Not at h2
            refine (hI.small hml).1.trans ?_
            have h3 : tol ^ 2 < q.e l ^ 2 := by rw [← sq_abs (q.e l)]; exact pow_lt_pow_left₀ h2 htol0.le (by norm_num)
            by_contra h4
            push Not at h4
            have : tol ^ 2 * tol < q.e l ^ 2 * |q.e (l + 1)| := mul_lt_mul h3 h4.le htol0 (by positivity)
            nlinarith
        · left
          rw [hI.done (by omega), abs_zero]
          exact htol0.le
      have step : ∀ q : QL ℝ, q.tst1 * qlEps = tol → (∀ j, l ≤ j → j < m → q.e j ≠ 0) → (∀ j, j < l → q.e j = 0) → q.e (n - 1) = 0 →
          |(q.iter n l m).e l| ≤ tol → ∃ fuel t, QL.loop n l m fuel q = some t ∧ QL.LoopSpec n l m q t := by
        intro q hq he hlow hlast hsm
        have hI := iter_spec hm hl he hlow
        refine ⟨1, q.iter n l m, ?_, ?_⟩
        · unfold QL.loop
          dsimp only
          rw [if_neg]
          simp only [lt_real, abs_real, decide_eq_true_eq, not_lt]
          rw [hI.tst1, mul_comm, hq]
          exact hsm
        · exact ⟨hI.tst1, hI.e_low, hI.e_gt, hI.e_m, hI.form, hI.norm, hI.d_low, by rw [mul_comm, hq]; exact hsm, fun B ho hB => iter_shift hm hl hI hlast ho hB⟩
      rcases hsmall with h | h
      · exact step q hq he hlow hlast h
      · -- `|e[l]|` small at the beginning: the next two rounds make it smaller
        by_cases hfirst : |(q.iter n l m).e l| ≤ tol
        · exact step q hq he hlow hlast hfirst
        · -- then the second leading element is small afterwards
          push Not at hfirst
          set t := q.iter n l m with ht
          have hml : l + 1 < m := by
            by_contra hml
            rw [hI.done (by omega), abs_zero] at hfirst
            linarith
          have hprod := (hI.small hml).2
          have hte : ∀ j, l ≤ j → j < m → t.e j ≠ 0 := by
            intro j h1 h2
            by_cases hj : j = l
            · rw [hj]
              intro h0
              rw [h0, abs_zero] at hfirst
              linarith
            · exact hI.e_ne j (by omega) h2
          have htlow : ∀ j, j < l → t.e j = 0 := fun j hj => by rw [hI.e_low j hj, hlow j hj]
          have htlast : t.e (n - 1) = 0 := by
            by_cases hmn : m = n - 1
            · rw [← hmn]; exact hI.e_m
            · rw [hI.e_gt _ (by omega), hlast]
          have htt : t.tst1 * qlEps = tol := by rw [hI.tst1, hq]
          have hI2 := iter_spec hm hl hte htlow
          have h5 : t.e l ^ 2 * |t.e (l + 1)| ≤ tol ^ 3 := by
            have h6 := hk hml
            rw [pow_zero, mul_one] at h6
            have h7 : 0 ≤ t.e l ^ 2 * |t.e (l + 1)| := by positivity
            nlinarith
          have h8 : |(t.iter n l m).e l| ≤ tol := by
            refine (hI2.small hml).1.trans ?_
            have h3 : tol ^ 2 < t.e l ^ 2 := by rw [← sq_abs (t.e l)]; exact pow_lt_pow_left₀ hfirst htol0.le (by norm_num)
            by_contra h4
            push Not at h4
            have : tol ^ 2 * tol < t.e l ^ 2 * |t.e (l + 1)| := mul_lt_mul h3 h4.le htol0 (by positivity)
            nlinarith
          obtain ⟨fuel, u, hu, hs⟩ := step t htt hte htlow htlast h8
          refine ⟨fuel + 1, u, ?_, ?_⟩
          · unfold QL.loop
            dsimp only
            rw [← ht, if_pos]
            · exact hu
            · simp only [lt_real, abs_real, decide_eq_true_eq]
              rw [mul_comm, htt]
              exact hfirst
          · have hcut := cut_of_zero hI.e_m
            refine ⟨hs.tst1.trans hI.tst1, fun j hj => (hs.e_low j hj).trans (hI.e_low j hj), fun j hj => (hs.e_gt j hj).trans (hI.e_gt j hj), hs.e_m, ?_, ?_,
              fun j hj => (hs.d_low j hj).trans (hI.d_low j hj), by rw [← hI.tst1]; exact hs.small, ?_⟩
            · intro x; rw [hs.form x, hcut, hI.form x]
            · intro x; rw [hs.norm x, hI.norm x]
            · intro B ho hB
              refine hs.shift B (fun x => by rw [hI.norm x, ho x]) fun x => ?_
              rw [hcut, hI.form x]
              exact hB x
    | succ k ih =>
      intro q hq he hlow hlast hk
      have hI := iter_spec hm hl he hlow
      set t := q.iter n l m with ht
      by_cases hfirst : |t.e l| ≤ tol
      · refine ⟨1, t, ?_, ?_⟩
        · unfold QL.loop
          dsimp only
          rw [← ht, if_neg]
          simp only [lt_real, abs_real, decide_eq_true_eq, not_lt]
          rw [hI.tst1, mul_comm, hq]
          exact hfirst
        · exact ⟨hI.tst1, hI.e_low, hI.e_gt, hI.e_m, hI.form, hI.norm, hI.d_low, by rw [mul_comm, hq]; exact hfirst, fun B ho hB => iter_shift hm hl hI hlast ho hB⟩
      · push Not at hfirst
        have hte : ∀ j, l ≤ j → j < m → t.e j ≠ 0 := by
          intro j h1 h2
          by_cases hj : j = l
          · rw [hj]
            intro h0
            rw [h0, abs_zero] at hfirst
            linarith
          · exact hI.e_ne j (by omega) h2
        have htlow : ∀ j, j < l → t.e j = 0 := fun j hj => by rw [hI.e_low j hj, hlow j hj]
        have htlast : t.e (n - 1) = 0 := by
          by_cases hmn : m = n - 1
          · rw [← hmn]; exact hI.e_m
          · rw [hI.e_gt _ (by omega), hlast]
        have htt : t.tst1 * qlEps = tol := by rw [hI.tst1, hq]
        have hprod : l + 1 < m → t.e l ^ 2 * |t.e (l + 1)| ≤ tol ^ 3 * Real.sqrt 2 ^ k := by
          intro hml
          have h1 := (hI.small hml).2
          have h2 := hk hml
          rw [pow_succ] at h2
          refine le_of_mul_le_mul_left ?_ (show (0 : ℝ) < Real.sqrt 2 by positivity)
          calc _ ≤ _ := h1
            _ ≤ _ := h2
            _ = _ := by ring
        obtain ⟨fuel, u, hu, hs⟩ := ih t htt hte htlow htlast hprod
        refine ⟨fuel + 1, u, ?_, ?_⟩
        · unfold QL.loop
          dsimp only
          rw [← ht, if_pos]
          · exact hu
          · simp only [lt_real, abs_real, decide_eq_true_eq]
            rw [mul_comm, htt]
            exact hfirst
        · have hcut := cut_of_zero hI.e_m
          refine ⟨hs.tst1.trans hI.tst1, fun j hj => (hs.e_low j hj).trans (hI.e_low j hj), fun j hj => (hs.e_gt j hj).trans (hI.e_gt j hj), hs.e_m, ?_, ?_,
            fun j hj => (hs.d_low j hj).trans (hI.d_low j hj), by rw [← hI.tst1]; exact hs.small, ?_⟩
          · intro x; rw [hs.form x, hcut, hI.form x]
          · intro x; rw [hs.norm x, hI.norm x]
          · intro B ho hB
            refine hs.shift B (fun x => by rw [hI.norm x, ho x]) fun x => ?_
            rw [hcut, hI.form x]
            exact hB x
  obtain ⟨k, hk⟩ := pow_unbounded_of_one_lt (q.e l ^ 2 * |q.e (l + 1)| / tol ^ 3) hs2
  refine key k q (by rw [htol, mul_comm]) he hlow hlast fun _ => ?_
  rw [div_lt_iff₀ (by positivity)] at hk
  linarith

/-! ## The loop over the columns -/

theorem qlEps_pos : (0 : ℝ) < qlEps := by unfold qlEps; rw [lit_real]; positivity

/-- The first small off-diagonal element. -/
theorem small_spec {n l : Nat} (q : QL ℝ) (hl : l < n) (hlast : q.e (n - 1) = 0) (ht : 0 ≤ q.tst1) :
    l ≤ q.small n l ∧ q.small n l < n ∧ |q.e (q.small n l)| ≤ qlEps * q.tst1 ∧ ∀ j, l ≤ j → j < q.small n l → qlEps * q.tst1 < |q.e j| := by
  unfold QL.small
  cases hf : (List.range' l (n - l)).find? fun m => Arith.le (Arith.abs (q.e m)) (qlEps * q.tst1) with
  | none =>
    rw [List.find?_eq_none] at hf
    have := hf (n - 1) (by rw [List.mem_range'_1]; omega)
    simp only [le_real, abs_real, decide_eq_true_eq, hlast, abs_zero] at this
    exact absurd (mul_nonneg qlEps_pos.le ht) this
  | some m =>
    rw [Option.getD_some]
    have h1 := List.find?_some hf
    have h2 := List.mem_of_find?_eq_some hf
    rw [List.mem_range'_1] at h2
    simp only [le_real, abs_real, decide_eq_true_eq] at h1
    refine ⟨h2.1, by omega, h1, fun j hj hjm => ?_⟩
    rw [List.find?_range'_eq_some] at hf
    have := hf.2.2 j hj hjm
    simpa using this

/-- What holds at the beginning of round `l`; `A` is the form of the matrix to be decomposed. -/
structure QL.Inv (n : Nat) (A : (Nat → ℝ) → ℝ) (a : ℝ) (l : Nat) (q : QL ℝ) : Prop where
  low : ∀ j, j < l → q.e j = 0
  last : q.e (n - 1) = 0
  tst : 0 ≤ q.tst1
  orth : ∀ x, sqNorm n (coord n q.V x) = sqNorm n x
  form : ∀ x, |A x - q.form n l q.e (coord n q.V x)| ≤ 2 * l * qlEps * q.tst1 * sqNorm n x
  shift : |q.f| ≤ a + 2 * l * qlEps * q.tst1
  tst_le : q.tst1 ≤ 3 * (a + 2 * l * qlEps * q.tst1)

/-- The effect of neglecting an off-diagonal element. -/
theorem triForm_set {n k : Nat} (d e z : Nat → ℝ) (hk : k < n) (hlast : e (n - 1) = 0) : |triForm n d e z - triForm n d (set1 e k 0) z| ≤ |e k| * sqNorm n z := by
  have h1 : triForm n d e z - triForm n d (set1 e k 0) z = 2 * e k * z k * z (k + 1) := by
    unfold triForm
    rw [← sum_sub_distrib, sum_eq_single k]
    · rw [set1_same]; ring
    · intro j _ hj; rw [set1_ne _ _ hj]; ring
    · intro h; exact absurd (mem_range.2 hk) h
  rw [h1]
  by_cases hkn : k + 1 < n
  · have h2 : z k ^ 2 + z (k + 1) ^ 2 ≤ sqNorm n z := by
      unfold sqNorm
      calc z k ^ 2 + z (k + 1) ^ 2 = ∑ j ∈ ({k, k + 1} : Finset Nat), z j ^ 2 := by rw [sum_insert (by simp), sum_singleton]
        _ ≤ _ := sum_le_sum_of_subset_of_nonneg (fun j hj => by
            simp only [mem_insert, mem_singleton] at hj
            exact mem_range.2 (by omega)) fun _ _ _ => sq_nonneg _
    have h3 : |2 * z k * z (k + 1)| ≤ z k ^ 2 + z (k + 1) ^ 2 := by
      rw [abs_le]
      constructor <;> nlinarith [sq_nonneg (z k + z (k + 1)), sq_nonneg (z k - z (k + 1))]
    calc |2 * e k * z k * z (k + 1)| = |e k| * |2 * z k * z (k + 1)| := by rw [← abs_mul]; congr 1; ring
      _ ≤ |e k| * sqNorm n z := mul_le_mul_of_nonneg_left (h3.trans h2) (abs_nonneg _)
  · rw [show k = n - 1 by omega, hlast]
    simp

theorem cut_eq_set (e : Nat → ℝ) (m : Nat) : cut e m = set1 e m 0 := rfl

/-- The end of a round. -/
theorem finish_inv {n l : Nat} {A : (Nat → ℝ) → ℝ} {a : ℝ} {q : QL ℝ} (hl : l < n) (low : ∀ j, j < l → q.e j = 0) (last : q.e (n - 1) = 0) (tst : 0 ≤ q.tst1)
    (orth : ∀ x, sqNorm n (coord n q.V x) = sqNorm n x) (small : |q.e l| ≤ qlEps * q.tst1)
    (form : ∀ x, |A x - q.form n l q.e (coord n q.V x)| ≤ (2 * l + 1) * qlEps * q.tst1 * sqNorm n x)
    (shift : |q.f| ≤ a + (2 * l + 1) * qlEps * q.tst1) (tst_le : q.tst1 ≤ 3 * (a + 2 * l * qlEps * q.tst1)) :
    QL.Inv n A a (l + 1) { q with d := set1 q.d l (q.d l + q.f), e := set1 q.e l (lit 0) } := by
  have hpos : 0 ≤ (qlEps : ℝ) * q.tst1 := mul_nonneg qlEps_pos.le tst
  constructor
  · intro j hj
    show set1 q.e l (lit 0) j = 0
    by_cases h : j = l
    · rw [h, set1_same]; simp
    · rw [set1_ne _ _ h]; exact low j (by omega)
  · show set1 q.e l (lit 0) (n - 1) = 0
    by_cases h : n - 1 = l
    · rw [h, set1_same]; simp
    · rw [set1_ne _ _ h]; exact last
  · exact tst
  · exact orth
  · intro x
    set z := coord n q.V x with hz
    have h1 := form x
    have h2 := triForm_set q.d q.e z hl last
    have h3 : triForm n (set1 q.d l (q.d l + q.f)) (set1 q.e l 0) z + q.f * tailNorm n (l + 1) z = triForm n q.d (set1 q.e l 0) z + q.f * tailNorm n l z := by
      unfold triForm tailNorm
      rw [mul_sum, mul_sum, ← sum_add_distrib, ← sum_add_distrib]
      refine sum_congr rfl fun j _ => ?_
      by_cases h : j = l
      · subst h
        rw [set1_same, if_pos (by omega), if_neg (by omega)]
        ring
      · rw [set1_ne _ _ h]
        by_cases h' : j < l
        · rw [if_pos (by omega), if_pos h']
        · rw [if_neg (by omega), if_neg h']
    unfold QL.form at h1 ⊢
    simp only [lit_real, Rat.cast_zero]
    rw [← hz] at h1
    rw [h3]
    have h4 : |q.e l| * sqNorm n z ≤ qlEps * q.tst1 * sqNorm n x := by
      rw [hz, orth x]
      exact mul_le_mul_of_nonneg_right small (sqNorm_nonneg _ _)
    rw [abs_le] at h1 h2 ⊢
    push_cast
    constructor <;> linarith [h1.1, h1.2, h2.1, h2.2]
  · show |q.f| ≤ a + 2 * ((l + 1 : Nat) : ℝ) * qlEps * q.tst1
    push_cast
    linarith
  · show q.tst1 ≤ 3 * (a + 2 * ((l + 1 : Nat) : ℝ) * qlEps * q.tst1)
    push_cast
    linarith

theorem column_spec {n l : Nat} {A : (Nat → ℝ) → ℝ} {a : ℝ} (hA : ∀ x, |A x| ≤ a * sqNorm n x) {q : QL ℝ} (hl : l < n) (h : QL.Inv n A a l q) :
    ∃ fuel t, (∀ fuel', fuel ≤ fuel' → q.column n fuel' l = some (.ok t)) ∧ QL.Inv n A a (l + 1) t := by
  set q1 : QL ℝ := { q with tst1 := if q.tst1 < |q.d l| + |q.e l| then |q.d l| + |q.e l| else q.tst1 } with hq1
  have hpos := qlEps_pos
  have ht1 : q.tst1 ≤ q1.tst1 := by
    rw [hq1]
    dsimp only
    split
    · rename_i h1; exact h1.le
    · exact le_rfl
  have ht2 : |q.d l| + |q.e l| ≤ q1.tst1 := by
    rw [hq1]
    dsimp only
    split
    · exact le_rfl
    · rename_i h1; exact not_lt.1 h1
  have ht0 : 0 ≤ q1.tst1 := h.tst.trans ht1
  have hlnn : (0 : ℝ) ≤ l := by positivity
  have hmono : 2 * (l : ℝ) * qlEps * q.tst1 ≤ 2 * l * qlEps * q1.tst1 := mul_le_mul_of_nonneg_left ht1 (by positivity)
  -- bounds of the elements
  have hform : ∀ x, |q.form n l q.e (coord n q.V x)| ≤ (a + 2 * l * qlEps * q.tst1) * sqNorm n x := by
    intro x
    have h1 := h.form x
    have h2 := hA x
    rw [abs_le] at h1 h2 ⊢
    constructor <;> linarith [h1.1, h1.2, h2.1, h2.2]
  have hel := form_elements (form_bound h.last h.orth hform) hl h.last
  have htle : q1.tst1 ≤ 3 * (a + 2 * l * qlEps * q1.tst1) := by
    have h1 : q1.tst1 ≤ 3 * (a + 2 * l * qlEps * q.tst1) := by
      rw [hq1]
      dsimp only
      split
      · have h2 : |q.d l| ≤ |q.d l + q.f| + |q.f| := by
          calc |q.d l| = |(q.d l + q.f) - q.f| := by congr 1; ring
            _ ≤ _ := abs_sub _ _
        linarith [hel.1, hel.2, h.shift]
      · exact h.tst_le
    linarith
  have hcol : ∀ fuel, q.column n fuel l = if l < q1.small n l then
      if q1.small n l = n then some .ub
      else (QL.loop n l (q1.small n l) fuel q1).map fun q => .ok { q with d := set1 q.d l (q.d l + q.f), e := set1 q.e l (lit 0) }
      else some (.ok { q1 with d := set1 q1.d l (q1.d l + q1.f), e := set1 q1.e l (lit 0) }) := by
    intro fuel
    unfold QL.column
    simp only [abs_real, lt_real, decide_eq_true_eq]
    rfl
  obtain ⟨s1, s2, s3, s4⟩ := small_spec q1 hl h.last ht0
  have hform1 : ∀ x, q1.form n l q1.e (coord n q1.V x) = q.form n l q.e (coord n q.V x) := fun x => rfl
  by_cases hm : l < q1.small n l
  · set m := q1.small n l with hmd
    have hne : ∀ j, l ≤ j → j < m → q1.e j ≠ 0 := by
      intro j h1 h2 h0
      have := s4 j h1 h2
      rw [h0, abs_zero] at this
      exact absurd (mul_nonneg hpos.le ht0) (not_le.2 this)
    have htpos : 0 < q1.tst1 := by
      have h1 : 0 < |q.e l| := abs_pos.2 (hne l le_rfl hm)
      linarith [abs_nonneg (q.d l)]
    obtain ⟨fuel, t, hlp, hsp⟩ := loop_ends s2 hm q1 hne h.low h.last htpos
    refine ⟨fuel, { t with d := set1 t.d l (t.d l + t.f), e := set1 t.e l (lit 0) }, fun fuel' hf => ?_, ?_⟩
    · rw [hcol fuel', if_pos hm, if_neg (by omega), loop_mono hf hlp]
      rfl
    · have horth : ∀ x, sqNorm n (coord n t.V x) = sqNorm n x := fun x => by rw [hsp.norm x]; exact h.orth x
      have hcut : ∀ x, |q1.form n l q1.e (coord n q1.V x) - q1.form n l (cut q1.e m) (coord n q1.V x)| ≤ qlEps * q1.tst1 * sqNorm n x := by
        intro x
        have h1 := triForm_set q1.d q1.e (coord n q1.V x) s2 h.last
        rw [← cut_eq_set] at h1
        have h2 : |q1.e m| * sqNorm n (coord n q1.V x) ≤ qlEps * q1.tst1 * sqNorm n x := by
          rw [show sqNorm n (coord n q1.V x) = sqNorm n x from h.orth x]
          exact mul_le_mul_of_nonneg_right s3 (sqNorm_nonneg _ _)
        have h3 : q1.form n l q1.e (coord n q1.V x) - q1.form n l (cut q1.e m) (coord n q1.V x) =
            triForm n q1.d q1.e (coord n q1.V x) - triForm n q1.d (cut q1.e m) (coord n q1.V x) := by unfold QL.form; ring
        rw [h3]
        exact h1.trans h2
      have hmn : ∀ x, 2 * (l : ℝ) * qlEps * q.tst1 * sqNorm n x ≤ 2 * l * qlEps * q1.tst1 * sqNorm n x := fun x =>
        mul_le_mul_of_nonneg_right hmono (sqNorm_nonneg _ _)
      refine finish_inv hl (fun j hj => by rw [hsp.e_low j hj]; exact h.low j hj) ?_ (by rw [hsp.tst1]; exact ht0) horth (by rw [hsp.tst1]; exact hsp.small) ?_ ?_ ?_
      · by_cases hmn : m = n - 1
        · rw [← hmn]; exact hsp.e_m
        · rw [hsp.e_gt _ (by omega)]; exact h.last
      · intro x
        rw [hsp.form x, hsp.tst1]
        have h1 := h.form x
        have h2 := hcut x
        rw [hform1 x] at h2
        have h3 := hmn x
        rw [abs_le] at h1 h2 ⊢
        constructor <;> linarith [h1.1, h1.2, h2.1, h2.2]
      · rw [hsp.tst1]
        refine hsp.shift _ h.orth fun x => ?_
        have h1 := hform x
        have h2 := hcut x
        rw [hform1 x] at h2
        have h3 := hmn x
        rw [abs_le] at h1 h2 ⊢
        constructor <;> linarith [h1.1, h1.2, h2.1, h2.2]
      · rw [hsp.tst1]; exact htle
  · have hml : q1.small n l = l := by omega
    refine ⟨0, { q1 with d := set1 q1.d l (q1.d l + q1.f), e := set1 q1.e l (lit 0) }, fun fuel' _ => ?_, ?_⟩
    · rw [hcol fuel', if_neg hm]
    · rw [hml] at s3
      have h0 : ∀ x, 0 ≤ qlEps * q1.tst1 * sqNorm n x := fun x => mul_nonneg (mul_nonneg hpos.le ht0) (sqNorm_nonneg _ _)
      have h0' : 0 ≤ qlEps * q1.tst1 := mul_nonneg hpos.le ht0
      refine finish_inv hl h.low h.last ht0 h.orth s3 ?_ ?_ htle
      · intro x
        rw [hform1 x]
        have h1 := h.form x
        have h3 : 2 * (l : ℝ) * qlEps * q.tst1 * sqNorm n x ≤ 2 * l * qlEps * q1.tst1 * sqNorm n x := mul_le_mul_of_nonneg_right hmono (sqNorm_nonneg _ _)
        linarith [h0 x]
      · have := h.shift
        show |q.f| ≤ _
        linarith

theorem columns_spec {n : Nat} {A : (Nat → ℝ) → ℝ} {a : ℝ} (hA : ∀ x, |A x| ≤ a * sqNorm n x) : ∀ (k l : Nat) {q : QL ℝ}, l + k = n → QL.Inv n A a l q →
    ∃ fuel t, (∀ fuel', fuel ≤ fuel' → QL.columns n fuel' k l q = some (.ok t)) ∧ QL.Inv n A a n t := by
  intro k
  induction k with
  | zero =>
    intro l q hl h
    obtain rfl : l = n := by omega
    exact ⟨0, q, fun _ _ => rfl, h⟩
  | succ k ih =>
    intro l q hl h
    obtain ⟨f1, t1, h1, h2⟩ := column_spec hA (by omega) h
    obtain ⟨f2, t2, h3, h4⟩ := ih (l + 1) (by omega) h2
    refine ⟨max f1 f2, t2, fun fuel' hf => ?_, h4⟩
    unfold QL.columns
    rw [h1 fuel' (le_trans (le_max_left _ _) hf)]
    exact h3 fuel' (le_trans (le_max_right _ _) hf)

/-! ## Sorting -/

theorem qlMin_spec {n i : Nat} (hi : i < n) (d : Nat → ℝ) : i ≤ (qlMin n i d).1 ∧ (qlMin n i d).1 < n ∧ (qlMin n i d).2 = d (qlMin n i d).1 ∧
    ∀ j, i ≤ j → j < n → (qlMin n i d).2 ≤ d j := by
  unfold qlMin
  have := forUp_inv (fun k (x : Nat × ℝ) => i ≤ x.1 ∧ x.1 < k ∧ x.2 = d x.1 ∧ ∀ j, i ≤ j → j < k → x.2 ≤ d j) (a := i + 1) (b := n) (by omega)
    (f := fun j x => if Arith.lt (d j) x.2 then (j, d j) else x) (s := (i, d i))
    ⟨le_rfl, by simp, rfl, fun j h1 h2 => by rw [show j = i by omega]⟩ ?_
  · exact this
  · rintro k x h1 h2 ⟨x1, x2, x3, x4⟩
    simp only [lt_real, decide_eq_true_eq]
    split
    · rename_i hlt
      refine ⟨by omega, by simp, rfl, fun j hj hjk => ?_⟩
      by_cases hjk' : j = k
      · rw [hjk']
      · exact hlt.le.trans (x4 j hj (by omega))
    · rename_i hlt
      refine ⟨x1, by omega, x3, fun j hj hjk => ?_⟩
      by_cases hjk' : j = k
      · rw [hjk']; exact not_lt.1 hlt
      · exact x4 j hj (by omega)

/-- The diagonal form. -/
def diagForm (n : Nat) (d z : Nat → ℝ) : ℝ := ∑ j ∈ range n, d j * z j ^ 2

theorem swap_cols (n i k : Nat) (V : Nat → Nat → ℝ) :
    forUp 0 n (fun j V => let p := V j i; set2 (set2 V j i (V j k)) j k p) V =
      fun a b => if a < n then (if b = k then V a i else if b = i then V a k else V a b) else V a b := by
  refine forUp_inv (fun m W => W = fun a b => if a < m then (if b = k then V a i else if b = i then V a k else V a b) else V a b) (Nat.zero_le n) ?_ ?_
  · funext a b; simp
  · rintro m _ - - rfl
    funext a b
    simp only [set2]
    by_cases ha : a = m
    · subst ha
      by_cases h1 : b = k
      · subst h1; simp
      · by_cases h2 : b = i
        · subst h2; simp [h1]
        · simp [h1, h2]
    · have : (a < m + 1) ↔ a < m := by omega
      simp [ha, this]

theorem sum_swap {n i k : Nat} (hi : i < n) (hk : k < n) (hik : k ≠ i) (F G : Nat → ℝ) (h1 : F i = G k) (h2 : F k = G i) (h : ∀ j, j ≠ i → j ≠ k → F j = G j) :
    ∑ j ∈ range n, F j = ∑ j ∈ range n, G j := by
  have h3 : ∑ j ∈ range n, (F j - G j) = ∑ j ∈ ({i, k} : Finset Nat), (F j - G j) := by
    refine (sum_subset ?_ ?_).symm
    · intro j hj
      simp only [mem_insert, mem_singleton] at hj
      exact mem_range.2 (by omega)
    · intro j _ hj
      simp only [mem_insert, mem_singleton, not_or] at hj
      rw [h j hj.1 hj.2, sub_self]
  rw [sum_insert (by simp [Ne.symm hik]), sum_singleton, sum_sub_distrib, h1, h2] at h3
  linarith

theorem sort_spec {n : Nat} (d : Nat → ℝ) (V : Nat → Nat → ℝ) :
    let r := forUp 0 (n - 1) (qlSortStep n) (d, V)
    (∀ x, diagForm n r.1 (coord n r.2 x) = diagForm n d (coord n V x)) ∧ (∀ x, sqNorm n (coord n r.2 x) = sqNorm n (coord n V x)) ∧
    ∀ i j, i ≤ j → j < n → r.1 i ≤ r.1 j := by
  have key := forUp_inv (fun i (r : (Nat → ℝ) × (Nat → Nat → ℝ)) =>
      (∀ x, diagForm n r.1 (coord n r.2 x) = diagForm n d (coord n V x)) ∧ (∀ x, sqNorm n (coord n r.2 x) = sqNorm n (coord n V x)) ∧
      ∀ a b, a < i → a ≤ b → b < n → r.1 a ≤ r.1 b) (Nat.zero_le (n - 1)) (f := qlSortStep n) (s := (d, V)) ⟨fun _ => rfl, fun _ => rfl, fun a b h => by omega⟩ ?_
  · refine ⟨key.1, key.2.1, fun i j hij hj => ?_⟩
    by_cases hi : i < n - 1
    · exact key.2.2 i j hi hij hj
    · rw [show i = j by omega]
  · rintro i ⟨d', V'⟩ - hi ⟨h1, h2, h3⟩
    obtain ⟨m1, m2, m3, m4⟩ := qlMin_spec (show i < n by omega) d'
    set k := (qlMin n i d').1 with hk
    unfold qlSortStep
    dsimp only at h1 h2 h3 ⊢
    rw [← hk]
    by_cases hki : k = i
    · rw [if_pos hki]
      refine ⟨h1, h2, fun a b ha hab hb => ?_⟩
      by_cases hai : a = i
      · show d' a ≤ d' b
        rw [hai, ← hki, ← m3]
        exact m4 b (by omega) hb
      · exact h3 a b (by omega) hab hb
    · rw [if_neg hki, m3, swap_cols]
      have hc : ∀ x j, coord n (fun a b => if a < n then (if b = k then V' a i else if b = i then V' a k else V' a b) else V' a b) x j =
          if j = k then coord n V' x i else if j = i then coord n V' x k else coord n V' x j := by
        intro x j
        unfold coord
        by_cases hj : j = k
        · rw [if_pos hj]
          exact sum_congr rfl fun a ha => by dsimp only; rw [if_pos (mem_range.1 ha), if_pos hj]
        · rw [if_neg hj]
          by_cases hj' : j = i
          · rw [if_pos hj']
            exact sum_congr rfl fun a ha => by dsimp only; rw [if_pos (mem_range.1 ha), if_neg hj, if_pos hj']
          · rw [if_neg hj']
            exact sum_congr rfl fun a ha => by dsimp only; rw [if_pos (mem_range.1 ha), if_neg hj, if_neg hj']
      have hd : ∀ j, set1 (set1 d' k (d' i)) i (d' k) j = if j = i then d' k else if j = k then d' i else d' j := fun j => rfl
      refine ⟨fun x => ?_, fun x => ?_, ?_⟩
      · rw [← h1 x]
        unfold diagForm
        dsimp only
        refine sum_swap (i := i) (k := k) (by omega) m2 hki _ _ ?_ ?_ fun j hj hj' => ?_
        · rw [hd, if_pos rfl, hc, if_neg (Ne.symm hki), if_pos rfl]
        · rw [hd, if_neg hki, if_pos rfl, hc, if_pos rfl]
        · rw [hd, if_neg hj, if_neg hj', hc, if_neg hj', if_neg hj]
      · rw [← h2 x]
        unfold sqNorm
        dsimp only
        refine sum_swap (i := i) (k := k) (by omega) m2 hki _ _ ?_ ?_ fun j hj hj' => ?_
        · rw [hc, if_neg (Ne.symm hki), if_pos rfl]
        · rw [hc, if_pos rfl]
        · rw [hc, if_neg hj', if_neg hj]
      · intro a b ha hab hb
        dsimp only
        have hval : ∀ b, i ≤ b → b < n → ∃ b', i ≤ b' ∧ b' < n ∧ set1 (set1 d' k (d' i)) i (d' k) b = d' b' := by
          intro b hb1 hb2
          rw [hd]
          split
          · exact ⟨k, m1, m2, rfl⟩
          · split
            · exact ⟨i, le_rfl, by omega, rfl⟩
            · exact ⟨b, hb1, hb2, rfl⟩
        by_cases hai : a = i
        · have e1 : set1 (set1 d' k (d' i)) i (d' k) a = d' k := by rw [hai, set1_same]
          rw [e1]
          obtain ⟨b', g1, g2, g3⟩ := hval b (by omega) hb
          rw [g3, ← m3]
          exact m4 b' g1 g2
        · have e1 : set1 (set1 d' k (d' i)) i (d' k) a = d' a := by rw [hd, if_neg hai, if_neg (by omega)]
          rw [e1]
          by_cases hbi : b < i
          · have e2 : set1 (set1 d' k (d' i)) i (d' k) b = d' b := by rw [hd, if_neg (by omega), if_neg (by omega)]
            rw [e2]
            exact h3 a b (by omega) hab hb
          · obtain ⟨b', g1, g2, g3⟩ := hval b (by omega) hb
            rw [g3]
            exact h3 a b' (by omega) (by omega) g2

/-- `QLalgo2`, given a tridiagonal matrix: it ends; the columns of the result are orthonormal, the eigenvalues are sorted, and the form of the
matrix is that of the eigenvalues up to the neglected elements. -/
theorem ql_spec {n : Nat} (hn : 1 ≤ n) {A : (Nat → ℝ) → ℝ} {a : ℝ} (ha : 0 ≤ a) (hA : ∀ x, |A x| ≤ a * sqNorm n x) {s : HH ℝ}
    (ho : ∀ x, sqNorm n (coord n s.V x) = sqNorm n x)
    (hf : ∀ x, A x = triForm n s.d (fun j => if j + 1 < n then s.e (j + 1) else 0) (coord n s.V x)) :
    ∃ fuel d V tst1, (∀ fuel', fuel ≤ fuel' → qlAlgo2 n fuel' s = some (.ok (d, V))) ∧ (∀ x, sqNorm n (coord n V x) = sqNorm n x) ∧
      (∀ i j, i ≤ j → j < n → d i ≤ d j) ∧ (∀ x, |A x - diagForm n d (coord n V x)| ≤ 2 * n * qlEps * tst1 * sqNorm n x) ∧
      tst1 ≤ 3 * (a + 2 * n * qlEps * tst1) ∧ 0 ≤ tst1 := by
  set e : Nat → ℝ := set1 (forUp 1 n (fun i e => set1 e (i - 1) (e i)) s.e) (n - 1) (lit 0) with he
  have hshift : forUp 1 n (fun i e => set1 e (i - 1) (e i)) s.e = fun j => if j + 1 < n then s.e (j + 1) else s.e j := by
    refine forUp_inv (fun i e => e = fun j => if j + 1 < i then s.e (j + 1) else s.e j) hn ?_ ?_
    · funext j; rw [if_neg (by omega)]
    · rintro i _ h1 h2 rfl
      funext j
      unfold set1
      by_cases hj : j = i - 1
      · rw [if_pos hj]
        dsimp only
        rw [if_neg (show ¬ i + 1 < i by omega), if_pos (show j + 1 < i + 1 by omega)]
        congr 1
        omega
      · rw [if_neg hj]
        dsimp only
        by_cases hj' : j + 1 < i
        · rw [if_pos hj', if_pos (by omega)]
        · rw [if_neg hj', if_neg (by omega)]
  have he' : ∀ j, j < n → e j = if j + 1 < n then s.e (j + 1) else 0 := by
    intro j hj
    rw [he, hshift]
    unfold set1
    by_cases h : j = n - 1
    · rw [if_pos h, if_neg (by omega)]; simp
    · rw [if_neg h]
      dsimp only
      rw [if_pos (show j + 1 < n by omega), if_pos (show j + 1 < n by omega)]
  have hinv : QL.Inv n A a 0 { d := s.d, e := e, V := s.V, f := lit 0, tst1 := lit 0 } := by
    constructor
    · intro j hj; omega
    · show e (n - 1) = 0
      rw [he' _ (by omega), if_neg (by omega)]
    · simp
    · exact ho
    · intro x
      unfold QL.form
      simp only [lit_real, Rat.cast_zero, zero_mul, add_zero, mul_zero]
      rw [hf x]
      have : triForm n s.d e (coord n s.V x) = triForm n s.d (fun j => if j + 1 < n then s.e (j + 1) else 0) (coord n s.V x) := by
        unfold triForm
        exact sum_congr rfl fun j hj => by rw [he' j (mem_range.1 hj)]
      rw [this, sub_self, abs_zero]
    · simp only [lit_real, Rat.cast_zero, abs_zero, mul_zero, add_zero]; exact ha
    · simp only [lit_real, Rat.cast_zero, mul_zero, add_zero]; linarith
  obtain ⟨fuel, t, h1, h2⟩ := columns_spec hA n 0 (by omega) hinv
  obtain ⟨g1, g2, g3⟩ := sort_spec (n := n) t.d t.V
  refine ⟨fuel, _, _, t.tst1, fun fuel' hf' => ?_, fun x => (g2 x).trans (h2.orth x), g3, fun x => ?_, h2.tst_le, h2.tst⟩
  · unfold qlAlgo2
    dsimp only
    rw [← he, h1 fuel' hf']
  · rw [g1 x]
    have h3 := h2.form x
    have h4 : t.form n n t.e (coord n t.V x) = diagForm n t.d (coord n t.V x) := by
      unfold QL.form triForm tailNorm diagForm
      have : ∑ j ∈ range n, (if j < n then (0 : ℝ) else coord n t.V x j ^ 2) = 0 := sum_eq_zero fun j hj => if_pos (mem_range.1 hj)
      rw [this, mul_zero, add_zero]
      exact sum_congr rfl fun j hj => by rw [h2.low j (mem_range.1 hj)]; ring
    rw [h4] at h3
    exact h3

end Spot
