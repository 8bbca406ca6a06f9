import Verif.Props.Selection
import Verif.Props.MathTools
import Mathlib.Analysis.SpecificLimits.Basic
import Mathlib.Topology.Algebra.Order.LiminfLimsup

/-! # MES and EVA settle where the selected individuals are (C94) -/

namespace Spot

open Filter Topology

variable {n : Nat}

/-- An infinite sequence of updates, with the orders and the populations they get. -/
structure Spec.Updating (alg : EsAlg ℝ) (eps : ℝ) (mu : Int) (s : ℕ → Es ℝ n) (order : ℕ → List Nat) (pop : ℕ → List (Fin n → ℝ)) : Prop where
  step : ∀ k, updateDistribution alg eps mu (s k) (order k) (pop k) = .ok (s (k + 1))

/-- In each generation the average of the selected individuals, the first `mu` in the order, is `m`. -/
def Spec.SelectedAverage (mu : Int) (order : ℕ → List Nat) (pop : ℕ → List (Fin n → ℝ)) (m : Fin n → ℝ) : Prop :=
  ∀ k best, ((order k).take mu.toNat).map (fun i => (pop k)[i]?) = best.map some → ∀ j, Spec.average (fun x => x j) best = m j

/-- In each generation all selected individuals are `m`. -/
def Spec.SelectedAre (mu : Int) (order : ℕ → List Nat) (pop : ℕ → List (Fin n → ℝ)) (m : Fin n → ℝ) : Prop :=
  ∀ k, ∀ i ∈ (order k).take mu.toNat, ∀ x, (pop k)[i]? = some x → x = m

/-- A geometric sequence. -/
theorem geometric {f : ℕ → ℝ} {r : ℝ} (h : ∀ k, f (k + 1) = r * f k) (k : ℕ) : f k = r ^ k * f 0 := by
  induction k with
  | zero => simp
  | succ k ih => rw [h, ih, pow_succ]; ring

/-- **C94.** EVA, exact arithmetic: while the average of the selected individuals is `m`, the distance of the mean to `m` shrinks by the factor `1 - step_size` in each
generation, so that the mean converges to `m`. -/
theorem C94_eva_mean (o : EvaOpts ℝ) (h0 : 0 < o.stepSize) (h1 : o.stepSize < 2) (eps : ℝ) (mu : Int) (s : ℕ → Es ℝ n) (order : ℕ → List Nat)
    (pop : ℕ → List (Fin n → ℝ)) (m : Fin n → ℝ) (hu : Spec.Updating (.eva o) eps mu s order pop) (hm : Spec.SelectedAverage mu order pop m) (j : Fin n) :
    (∀ k, (s k).mean j - m j = (1 - o.stepSize) ^ k * ((s 0).mean j - m j)) ∧ Tendsto (fun k => (s k).mean j) atTop (𝓝 (m j)) := by
  have hg : ∀ k, (s k).mean j - m j = (1 - o.stepSize) ^ k * ((s 0).mean j - m j) := by
    refine geometric (f := fun k => (s k).mean j - m j) fun k => ?_
    obtain ⟨best, hb, hs⟩ := C46_eva o eps mu _ _ _ _ (hu.step k)
    have := (hs j).1
    rw [hm k best hb j] at this
    show (s (k + 1)).mean j - m j = _
    rw [this]; ring
  refine ⟨hg, ?_⟩
  have hl : Tendsto (fun k => (1 - o.stepSize) ^ k * ((s 0).mean j - m j) + m j) atTop (𝓝 (0 * ((s 0).mean j - m j) + m j)) :=
    ((tendsto_pow_atTop_nhds_zero_of_abs_lt_one (by rw [abs_lt]; constructor <;> linarith)).mul_const _).add_const _
  rw [zero_mul, zero_add] at hl
  refine hl.congr fun k => ?_
  rw [← hg k]; ring

/-- **C94.** MES without momentum likewise. -/
theorem C94_mes_mean_without_momentum (o : MesOpts ℝ) (hs : o.momSigma ≤ 0) (h0 : 0 < o.meanSigma) (h1 : o.meanSigma < 2) (eps : ℝ) (mu : Int)
    (s : ℕ → Es ℝ n) (order : ℕ → List Nat) (pop : ℕ → List (Fin n → ℝ)) (m : Fin n → ℝ) (hu : Spec.Updating (.mes o) eps mu s order pop)
    (hm : Spec.SelectedAverage mu order pop m) (j : Fin n) :
    (∀ k, (s k).mean j - m j = (1 - o.meanSigma) ^ k * ((s 0).mean j - m j)) ∧ Tendsto (fun k => (s k).mean j) atTop (𝓝 (m j)) := by
  have hg : ∀ k, (s k).mean j - m j = (1 - o.meanSigma) ^ k * ((s 0).mean j - m j) := by
    refine geometric (f := fun k => (s k).mean j - m j) fun k => ?_
    obtain ⟨best, hb, hs'⟩ := C46_mes o eps mu _ _ _ _ (hu.step k)
    have := ((hs' j).2.1 hs).2
    rw [hm k best hb j] at this
    show (s (k + 1)).mean j - m j = _
    rw [this]; ring
  refine ⟨hg, ?_⟩
  have hl : Tendsto (fun k => (1 - o.meanSigma) ^ k * ((s 0).mean j - m j) + m j) atTop (𝓝 (0 * ((s 0).mean j - m j) + m j)) :=
    ((tendsto_pow_atTop_nhds_zero_of_abs_lt_one (by rw [abs_lt]; constructor <;> linarith)).mul_const _).add_const _
  rw [zero_mul, zero_add] at hl
  refine hl.congr fun k => ?_
  rw [← hg k]; ring

/-- **C94.** MES with momentum, exact arithmetic: while the average of the selected individuals is `m`, the mean converges to `m` and the momentum to 0 (it can oscillate around
`m`, see C45), if the rates satisfy `4 c (1 - a) > a (1 - c)²` for `a = mom_sigma` and `c = mean_sigma`, as the default options do. -/
theorem C94_mes_mean (o : MesOpts ℝ) (ha0 : 0 < o.momSigma) (ha1 : o.momSigma < 1) (hc0 : 0 < o.meanSigma)
    (hd : o.momSigma * (1 - o.meanSigma) ^ 2 < 4 * o.meanSigma * (1 - o.momSigma)) (eps : ℝ) (mu : Int) (s : ℕ → Es ℝ n) (order : ℕ → List Nat)
    (pop : ℕ → List (Fin n → ℝ)) (m : Fin n → ℝ) (hu : Spec.Updating (.mes o) eps mu s order pop) (hm : Spec.SelectedAverage mu order pop m) (j : Fin n) :
    Tendsto (fun k => (s k).mean j) atTop (𝓝 (m j)) ∧ Tendsto (fun k => (s k).mom j) atTop (𝓝 0) := by
  set a := o.momSigma with hadef
  set c := o.meanSigma with hcdef
  have hstep : ∀ k, (s (k + 1)).mom j = (1 - a) * (s k).mom j + a * (m j - (s k).mean j) ∧ (s (k + 1)).mean j = (s k).mean j + c * (s (k + 1)).mom j := by
    intro k
    obtain ⟨best, hb, hs'⟩ := C46_mes o eps mu _ _ _ _ (hu.step k)
    have := (hs' j).1 ha0
    rwa [hm k best hb j] at this
  let Q : ℕ → ℝ := fun k => a * ((s k).mean j - m j) ^ 2 + a * (1 - c) * ((s k).mean j - m j) * (s k).mom j + c * (1 - a) * (s k).mom j ^ 2
  have hQ : ∀ k, Q k = (1 - a) ^ k * Q 0 := by
    refine geometric fun k => ?_
    simp only [Q]
    rw [(hstep k).2, (hstep k).1]
    ring
  have hQ0 : Tendsto Q atTop (𝓝 0) := by
    have : Tendsto (fun k => (1 - a) ^ k * Q 0) atTop (𝓝 (0 * Q 0)) :=
      (tendsto_pow_atTop_nhds_zero_of_abs_lt_one (by rw [abs_lt]; constructor <;> linarith)).mul_const _
    rw [zero_mul] at this
    exact this.congr fun k => (hQ k).symm
  -- the discriminant
  have hD : 0 < 4 * c * (1 - a) - a * (1 - c) ^ 2 := by linarith
  have hca : 0 < c * (1 - a) := mul_pos hc0 (by linarith)
  have squeeze : ∀ (f : ℕ → ℝ) (B : ℝ), (∀ k, f k ^ 2 ≤ B * Q k) → Tendsto f atTop (𝓝 0) := by
    intro f B hf
    have h1 : Tendsto (fun k => f k ^ 2) atTop (𝓝 0) := by
      have : Tendsto (fun k => B * Q k) atTop (𝓝 (B * 0)) := hQ0.const_mul _
      rw [mul_zero] at this
      exact squeeze_zero (fun k => sq_nonneg _) hf this
    have h2 := h1.sqrt
    rw [Real.sqrt_zero] at h2
    rw [tendsto_zero_iff_abs_tendsto_zero]
    exact h2.congr fun k => Real.sqrt_sq_eq_abs _
  constructor
  · have : Tendsto (fun k => (s k).mean j - m j) atTop (𝓝 0) := by
      refine squeeze _ (4 * c * (1 - a) / (a * (4 * c * (1 - a) - a * (1 - c) ^ 2))) fun k => ?_
      rw [div_mul_eq_mul_div, le_div_iff₀ (mul_pos ha0 hD)]
      simp only [Q]
      nlinarith [sq_nonneg (a * (1 - c) * ((s k).mean j - m j) + 2 * (c * (1 - a)) * (s k).mom j)]
    have := this.add_const (m j)
    rw [zero_add] at this
    exact this.congr fun k => by ring
  · refine squeeze _ (4 / (4 * c * (1 - a) - a * (1 - c) ^ 2)) fun k => ?_
    rw [div_mul_eq_mul_div, le_div_iff₀ hD]
    simp only [Q]
    nlinarith [mul_nonneg ha0.le (sq_nonneg (2 * ((s k).mean j - m j) + (1 - c) * (s k).mom j))]

/-- If the values fed into an exponential average tend to 0, so does the average. -/
theorem average_tendsto_zero {v d : ℕ → ℝ} {r : ℝ} (h0 : 0 < r) (h1 : r ≤ 1) (hv : ∀ k, v (k + 1) = (1 - r) * v k + r * d k) (hv0 : ∀ k, 0 ≤ v k)
    (hd : Tendsto d atTop (𝓝 0)) : Tendsto v atTop (𝓝 0) := by
  rw [Metric.tendsto_atTop] at hd ⊢
  intro ε hε
  obtain ⟨K, hK⟩ := hd (ε / 2) (by linarith)
  have hb : ∀ k, v (K + k) ≤ (1 - r) ^ k * v K + ε / 2 := by
    intro k
    induction k with
    | zero => simp; linarith
    | succ k ih =>
      have h2 := hK (K + k) (by omega)
      rw [Real.dist_eq, sub_zero, abs_lt] at h2
      rw [← Nat.add_assoc, hv, pow_succ]
      have : (1 - r) * v (K + k) ≤ (1 - r) * ((1 - r) ^ k * v K + ε / 2) := mul_le_mul_of_nonneg_left ih (by linarith)
      nlinarith
  have hp : Tendsto (fun k => (1 - r) ^ k * v K) atTop (𝓝 0) := by
    have : Tendsto (fun k => (1 - r) ^ k * v K) atTop (𝓝 (0 * v K)) :=
      (tendsto_pow_atTop_nhds_zero_of_abs_lt_one (by rw [abs_lt]; constructor <;> linarith)).mul_const _
    rwa [zero_mul] at this
  rw [Metric.tendsto_atTop] at hp
  obtain ⟨L, hL⟩ := hp (ε / 2) (by linarith)
  refine ⟨K + L, fun k hk => ?_⟩
  obtain ⟨i, rfl⟩ : ∃ i, k = K + i := ⟨k - K, by omega⟩
  have h3 := hL i (by omega)
  rw [Real.dist_eq, sub_zero, abs_lt] at h3
  rw [Real.dist_eq, sub_zero, abs_of_nonneg (hv0 _)]
  have := hb i
  linarith

/-- The projection is not farther than the mean. -/
theorem projected_near {eps : ℝ} (h0 : 0 ≤ eps) (a ab p : Fin n → ℝ) (j : Fin n) : (p j - projected eps a ab p j) ^ 2 ≤ ∑ i, (p i - a i) ^ 2 := by
  by_cases h : eps < ∑ i, ab i * ab i
  · have h1 := (C62_projection eps h0 a ab p h).2.2.1 0
    simp only [zero_mul, add_zero] at h1
    exact (Finset.single_le_sum (f := fun i => (p i - projected eps a ab p i) ^ 2) (fun i _ => sq_nonneg _) (Finset.mem_univ j)).trans h1
  · rw [C62_no_direction eps a ab p (not_lt.1 h)]
    exact Finset.single_le_sum (f := fun i => (p i - a i) ^ 2) (fun i _ => sq_nonneg _) (Finset.mem_univ j)

theorem selectedAre_average {mu : Int} (hmu : 1 ≤ mu) {order : ℕ → List Nat} {pop : ℕ → List (Fin n → ℝ)} {m : Fin n → ℝ} (hm : Spec.SelectedAre mu order pop m)
    (k : ℕ) (best : List (Fin n → ℝ)) (hl : best ≠ []) (hb : ((order k).take mu.toNat).map (fun i => (pop k)[i]?) = best.map some) (f : (Fin n → ℝ) → ℝ) :
    Spec.average f best = f m := by
  have hall : ∀ x ∈ best, x = m := by
    intro x hx
    have : some x ∈ best.map some := List.mem_map.2 ⟨x, hx, rfl⟩
    rw [← hb] at this
    obtain ⟨i, hi, he⟩ := List.mem_map.1 this
    exact hm k i hi x he
  have hmap : best.map f = List.replicate best.length (f m) := by
    rw [List.eq_replicate_iff]
    refine ⟨by simp, fun y hy => ?_⟩
    obtain ⟨x, hx, rfl⟩ := List.mem_map.1 hy
    rw [hall x hx]
  unfold Spec.average
  rw [hmap, List.sum_replicate, nsmul_eq_mul]
  have : (best.length : ℝ) ≠ 0 := by
    have := List.length_pos_of_ne_nil hl
    exact_mod_cast this.ne'
  field_simp

/-- **C94.** If in each generation all selected individuals are the same point and the mean converges to it, all standard deviations converge to 0, for MES and EVA with a rate of the
variance in (0, 1]. -/
theorem C94_std (alg : EsAlg ℝ) (h0 : 0 < alg.varRate) (h1 : alg.varRate ≤ 1) (eps : ℝ) (he : 0 ≤ eps) (mu : Int) (hmu : 1 ≤ mu) (s : ℕ → Es ℝ n)
    (order : ℕ → List Nat) (pop : ℕ → List (Fin n → ℝ)) (m : Fin n → ℝ) (hu : Spec.Updating alg eps mu s order pop) (hm : Spec.SelectedAre mu order pop m)
    (hv : ∀ j, 0 ≤ (s 0).var j) (hmean : ∀ j, Tendsto (fun k => (s k).mean j) atTop (𝓝 (m j))) (j : Fin n) :
    Tendsto (fun k => (s k).std j) atTop (𝓝 0) := by
  have hvar : ∀ k, (s (k + 1)).var j = (1 - alg.varRate) * (s k).var j + alg.varRate * (m j - projected eps (s k).mean (s k).mom m j) ^ 2 := by
    intro k
    obtain ⟨sel', hsel, heq⟩ := update_selected (hu.step k)
    have h2 := selected_ok hsel
    rw [heq, updateWith_var, selVar_average eps (s k) sel' h2.1 h2.2.2.1]
    rw [selectedAre_average hmu hm k sel' (by rintro rfl; have := h2.2.2.1; simp at this; omega) h2.2.2.2 (fun x => (x j - projected eps (s k).mean (s k).mom x j) ^ 2)]
    unfold upd
    rw [lit_real, Rat.cast_one]
  have hd : Tendsto (fun k => (m j - projected eps (s k).mean (s k).mom m j) ^ 2) atTop (𝓝 0) := by
    refine squeeze_zero (fun k => sq_nonneg _) (fun k => projected_near he _ _ _ j) ?_
    have : Tendsto (fun k => ∑ i, (m i - (s k).mean i) ^ 2) atTop (𝓝 (∑ i, (m i - m i) ^ 2)) :=
      tendsto_finset_sum _ fun i _ => ((hmean i).const_sub (m i)).pow 2
    simpa using this
  have hpos : ∀ k, 0 ≤ (s k).var j := by
    intro k
    induction k with
    | zero => exact hv j
    | succ k ih =>
      rw [hvar]
      have := mul_nonneg (sub_nonneg.2 h1) ih
      have := mul_nonneg h0.le (sq_nonneg (m j - projected eps (s k).mean (s k).mom m j))
      linarith
  have := (average_tendsto_zero h0 h1 hvar hpos hd).sqrt
  rw [Real.sqrt_zero] at this
  exact this

theorem C94_selected_are_average {mu : Int} (hmu : 1 ≤ mu) {order : ℕ → List Nat} {pop : ℕ → List (Fin n → ℝ)} {m : Fin n → ℝ}
    (ho : ∀ k, mu.toNat ≤ (order k).length) (hm : Spec.SelectedAre mu order pop m) : Spec.SelectedAverage mu order pop m := by
  intro k best hb j
  refine selectedAre_average hmu hm k best ?_ hb (fun x => x j)
  rintro rfl
  have h1 := congrArg List.length hb
  rw [List.length_map, List.length_take, List.map_nil, List.length_nil] at h1
  have := ho k
  omega

/-! ## Concrete cases -/

/-- The default options satisfy the conditions. -/
example : let o : MesOpts ℝ := MesOpts.default
    0 < o.momSigma ∧ o.momSigma < 1 ∧ 0 < o.meanSigma ∧ o.momSigma * (1 - o.meanSigma) ^ 2 < 4 * o.meanSigma * (1 - o.momSigma) := by
  simp only [MesOpts.default, lit_real]; norm_num

example : let o : EvaOpts ℝ := EvaOpts.default
    0 < o.stepSize ∧ o.stepSize < 2 ∧ 0 < (EsAlg.eva o).varRate ∧ (EsAlg.eva o).varRate ≤ 1 := by
  simp only [EvaOpts.default, EsAlg.varRate, lit_real]; norm_num

/-- A sequence of updates with one individual, always the same point, from any state. -/
noncomputable def exSettle (alg : EsAlg ℝ) (m : Fin n → ℝ) (s : Es ℝ n) : ℕ → Es ℝ n
  | 0 => s
  | k + 1 => alg.updateWith 0 1 (exSettle alg m s k) [m]

theorem exSettle_updating (alg : EsAlg ℝ) (m : Fin n → ℝ) (s : Es ℝ n) : Spec.Updating alg 0 1 (exSettle alg m s) (fun _ => [0]) (fun _ => [m]) :=
  ⟨fun _ => rfl⟩

theorem exSettle_selected (m : Fin n → ℝ) : Spec.SelectedAre 1 (fun _ => [0]) (fun _ => [m]) m := by
  intro k i hi x hx
  simp at hi
  subst hi
  simpa using hx.symm

/-- The default EVA optimizer settles in `m`. -/
example (m : Fin n → ℝ) (s : Es ℝ n) (hv : ∀ j, 0 ≤ s.var j) (j : Fin n) :
    Tendsto (fun k => (exSettle (.eva EvaOpts.default) m s k).mean j) atTop (𝓝 (m j)) ∧
    Tendsto (fun k => (exSettle (.eva EvaOpts.default) m s k).std j) atTop (𝓝 0) := by
  have hc : 0 < (EvaOpts.default : EvaOpts ℝ).stepSize ∧ (EvaOpts.default : EvaOpts ℝ).stepSize < 2 ∧ 0 < (EsAlg.eva (EvaOpts.default : EvaOpts ℝ)).varRate ∧
      (EsAlg.eva (EvaOpts.default : EvaOpts ℝ)).varRate ≤ 1 := by
    simp only [EvaOpts.default, EsAlg.varRate, lit_real]; norm_num
  have hmean := fun j => (C94_eva_mean _ hc.1 hc.2.1 0 1 _ _ _ m (exSettle_updating _ m s)
    (C94_selected_are_average (by norm_num) (fun _ => by simp) (exSettle_selected m)) j).2
  exact ⟨hmean j, C94_std _ hc.2.2.1 hc.2.2.2 0 le_rfl 1 le_rfl _ _ _ m (exSettle_updating _ m s) (exSettle_selected m) hv hmean j⟩

end Spot
