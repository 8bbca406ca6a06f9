import Verif.Model.MathTools
import Verif.Lemmas.Evolution
import Verif.Lemmas.Arith
import Mathlib.Analysis.InnerProductSpace.PiL2
import Mathlib.Analysis.SpecialFunctions.Trigonometric.Bounds

/-!
# C61 - C64, C81: test objectives, projection, distances, statistics, least squares

Exact arithmetic, except where `Dbl` is mentioned.
-/

namespace Spot

/-! ## C61 -/

/-- Value of one coordinate zero or more; the sum is zero exactly if all are. -/
theorem foldl_nonneg {α : Type} (f : α → ℝ) (l : List α) (h : ∀ x ∈ l, 0 ≤ f x) :
    0 ≤ l.foldl (fun s x => s + f x) 0 ∧ (l.foldl (fun s x => s + f x) 0 = 0 ↔ ∀ x ∈ l, f x = 0) := by
  rw [foldl_real, zero_add]
  induction l with
  | nil => simp
  | cons a l ih =>
    obtain ⟨h1, h2⟩ := ih fun x hx => h x (List.mem_cons_of_mem _ hx)
    have ha := h a (by simp)
    rw [List.map_cons, List.sum_cons]
    refine ⟨by linarith, ?_⟩
    rw [List.forall_mem_cons, ← h2]
    constructor
    · intro h; constructor <;> linarith
    · rintro ⟨h3, h4⟩; linarith

/-- **C61.** -/
theorem C61_sphere (v : List ℝ) : 0 ≤ sphere v ∧ (sphere v = 0 ↔ ∀ x ∈ v, x = 0) := by
  unfold sphere
  rw [show (lit 0 : ℝ) = 0 by simp]
  have := foldl_nonneg (fun x : ℝ => squared x) v fun x _ => by rw [squared_real]; positivity
  simpa [squared_real] using this

/-- **C61.** -/
theorem C61_ellipsoid (v : List ℝ) : 0 ≤ ellipsoid v ∧ (ellipsoid v = 0 ↔ ∀ x ∈ v, x = 0) := by
  unfold ellipsoid
  rw [show (lit 0 : ℝ) = 0 by simp]
  have hpos : ∀ i : ℕ, (0 : ℝ) < lit ((i : ℚ) + 1) := fun i => by rw [lit_real]; push_cast; positivity
  obtain ⟨h1, h2⟩ := foldl_nonneg (fun x : ℝ × ℕ => lit ((x.2 : ℚ) + 1) * squared x.1) v.zipIdx fun x _ => by
    rw [squared_real]; have := hpos x.2; positivity
  refine ⟨h1, h2.trans ?_⟩
  constructor
  · intro h x hx
    obtain ⟨i, hi, rfl⟩ := List.getElem_of_mem hx
    have := h (v[i], i) (by rw [List.mem_zipIdx_iff_getElem?]; simp [hi])
    rw [squared_real] at this
    have := (mul_eq_zero.1 this).resolve_left (hpos i).ne'
    exact pow_eq_zero_iff (n := 2) (by norm_num) |>.1 this
  · intro h x hx
    rw [h x.1 (by obtain ⟨-, -, h3⟩ := List.mem_zipIdx hx; rw [h3]; exact List.getElem_mem _), squared_real]; simp

/-- **C61.** In two or more dimensions (1, ..., 1) is the only optimum. -/
theorem C61_rosenbrock (v : List ℝ) (h : 2 ≤ v.length) : ∃ f, rosenbrock v = .ok f ∧ 0 ≤ f ∧ (f = 0 ↔ ∀ x ∈ v, x = 1) := by
  have hv : v ≠ [] := by rintro rfl; simp at h
  refine ⟨_, by unfold rosenbrock; rw [if_neg hv], ?_⟩
  rw [show (lit 0 : ℝ) = 0 by simp]
  obtain ⟨h1, h2⟩ := foldl_nonneg (fun x : ℝ × ℝ => lit 100 * squared (x.2 - squared x.1) + squared (lit 1 - x.1)) (v.zip v.tail) fun x _ => by
    simp only [squared_real, lit_real]; positivity
  refine ⟨h1, h2.trans ?_⟩
  have hz : ∀ x : ℝ × ℝ, (lit 100 * squared (x.2 - squared x.1) + squared (lit 1 - x.1) : ℝ) = 0 ↔ x.1 = 1 ∧ x.2 = 1 := by
    intro x
    simp only [squared_real, lit_real]; push_cast
    constructor
    · intro h
      have h3 : (x.2 - x.1 ^ 2) ^ 2 = 0 ∧ (1 - x.1) ^ 2 = 0 := by constructor <;> nlinarith [sq_nonneg (x.2 - x.1 ^ 2), sq_nonneg (1 - x.1)]
      have h4 : x.1 = 1 := by have := pow_eq_zero_iff (n := 2) (by norm_num) |>.1 h3.2; linarith
      have h5 := pow_eq_zero_iff (n := 2) (by norm_num) |>.1 h3.1
      exact ⟨h4, by rw [h4] at h5; linarith⟩
    · rintro ⟨h3, h4⟩; rw [h3, h4]; norm_num
  simp only [hz]
  constructor
  · intro h3 x hx
    obtain ⟨i, hi, rfl⟩ := List.getElem_of_mem hx
    by_cases h0 : i + 1 < v.length
    · exact (h3 (v[i], v[i + 1]) (by rw [List.mem_iff_getElem]; exact ⟨i, by simp; omega, by simp⟩)).1
    · obtain ⟨j, rfl⟩ : ∃ j, i = j + 1 := ⟨i - 1, by omega⟩
      exact (h3 (v[j], v[j + 1]) (by rw [List.mem_iff_getElem]; exact ⟨j, by simp; omega, by simp⟩)).2
  · intro h3 x hx
    have := List.of_mem_zip hx
    exact ⟨h3 _ this.1, h3 _ (List.mem_of_mem_tail this.2)⟩

/-- Finding: in one dimension the Rosenbrock function is constant, and an empty vector is read out of bounds. -/
theorem C61_rosenbrock_small (x : ℝ) : rosenbrock [x] = .ok 0 ∧ rosenbrock ([] : List ℝ) = .ub := by
  constructor
  · simp [rosenbrock]
  · simp [rosenbrock]

/-- **C61.** -/
theorem C61_rastrigin (v : List ℝ) : 0 ≤ rastrigin v ∧ (rastrigin v = 0 ↔ ∀ x ∈ v, x = 0) := by
  have key : rastrigin v = v.foldl (fun s x => s + (x ^ 2 + 10 * (1 - Real.cos (2 * Real.pi * x)))) 0 := by
    unfold rastrigin
    rw [foldl_real, foldl_real, zero_add]
    have : ∀ l : List ℝ, lit 10 * lit (l.length : ℚ) + (l.map fun x : ℝ => squared x - lit 10 * Trig.cos (lit 2 * Trig.pi * x)).sum =
        (l.map fun x : ℝ => x ^ 2 + 10 * (1 - Real.cos (2 * Real.pi * x))).sum := by
      intro l
      induction l with
      | nil => simp
      | cons a l ih =>
        rw [List.map_cons, List.map_cons, List.sum_cons, List.sum_cons, ← ih]
        simp only [lit_real, squared_real, List.length_cons]
        push_cast
        show (10 * ((l.length : ℝ) + 1) + (a ^ 2 - 10 * Real.cos (2 * Real.pi * a) + _) : ℝ) = _
        ring
    exact this v
  rw [key]
  obtain ⟨h1, h2⟩ := foldl_nonneg (fun x : ℝ => x ^ 2 + 10 * (1 - Real.cos (2 * Real.pi * x))) v fun x _ => by
    have := Real.cos_le_one (2 * Real.pi * x); nlinarith [sq_nonneg x]
  refine ⟨h1, h2.trans (forall₂_congr fun x _ => ?_)⟩
  constructor
  · intro h
    have := Real.cos_le_one (2 * Real.pi * x)
    have : x ^ 2 = 0 := by nlinarith [sq_nonneg x]
    exact pow_eq_zero_iff (n := 2) (by norm_num) |>.1 this
  · rintro rfl; simp

/-- The same for `double`: none of these functions returns a negative number (but products may underflow to zero, or overflow). -/
theorem C61_not_negative [Libm] (v : List Dbl) : Dbl.NotNeg (sphere v) ∧ Dbl.NotNeg (ellipsoid v) ∧ (∀ f, rosenbrock v = .ok f → Dbl.NotNeg f) ∧
    ∀ f, himmelblau v = .ok f → Dbl.NotNeg f := by
  have h0 : Dbl.NotNeg (lit 0 : Dbl) := Dbl.notNeg_ofQ (le_refl 0)
  have hsq : ∀ x : Dbl, Dbl.NotNeg (squared x) := Dbl.notNeg_squared
  refine ⟨?_, ?_, ?_, ?_⟩
  · exact Dbl.NotNeg.foldl _ (fun x => hsq x) v _ h0
  · exact Dbl.NotNeg.foldl (fun x : Dbl × ℕ => (lit ((x.2 : ℚ) + 1) * squared x.1 : Dbl)) (fun x => Dbl.NotNeg.mul (Dbl.notNeg_ofQ (by positivity)) (hsq _)) _ _ h0
  · intro f h
    unfold rosenbrock at h
    split at h
    · cases h
    · cases h
      exact Dbl.NotNeg.foldl (fun x : Dbl × Dbl => (lit 100 * squared (x.2 - squared x.1) + squared (lit 1 - x.1) : Dbl))
        (fun x => Dbl.NotNeg.add (Dbl.NotNeg.mul (Dbl.notNeg_ofQ (by norm_num)) (hsq _)) (hsq _)) _ _ h0
  · intro f h
    unfold himmelblau at h
    split at h
    · cases h; exact Dbl.NotNeg.add (hsq _) (hsq _)
    · cases h

/-! ## C62 -/

theorem dotProduct_real {n : Nat} (a b : Fin n → ℝ) : dotProduct a b = ∑ i, a i * b i := by unfold dotProduct; rw [sumFin_real]

/-- **C62.** For a direction that is longer than the tolerance the projection `q` of `p` is on the line through `a`, `p - q` is orthogonal to the
direction, `q` is the nearest point of the line, and the projection of `q` is `q`. -/
theorem C62_projection {n : Nat} (eps : ℝ) (h0 : 0 ≤ eps) (a ab p : Fin n → ℝ) (h : eps < ∑ i, ab i * ab i) :
    let q := projected eps a ab p
    (∃ t, ∀ i, q i = a i + t * ab i) ∧ ∑ i, (p i - q i) * ab i = 0 ∧
    (∀ t, ∑ i, (p i - q i) ^ 2 ≤ ∑ i, (p i - (a i + t * ab i)) ^ 2) ∧ projected eps a ab q = q := by
  intro q
  have hab : dotProduct ab ab = ∑ i, ab i * ab i := dotProduct_real _ _
  have hne : (∑ i, ab i * ab i) ≠ 0 := by linarith [h0.trans_lt h] |> ne_of_gt
  have hq : ∀ p' : Fin n → ℝ, projected eps a ab p' = fun i => a i + ab i * ((∑ i, (p' i - a i) * ab i) / ∑ i, ab i * ab i) := by
    intro p'
    unfold projected
    rw [if_pos (by rw [hab]; exact decide_eq_true h), hab, dotProduct_real]
  obtain ⟨t, ht⟩ : ∃ t, t = (∑ i, (p i - a i) * ab i) / ∑ i, ab i * ab i := ⟨_, rfl⟩
  have hqi : ∀ i, q i = a i + t * ab i := fun i => by show projected eps a ab p i = _; rw [hq, ht]; ring
  have hts : t * ∑ i, ab i * ab i = ∑ i, (p i - a i) * ab i := by rw [ht]; exact div_mul_cancel₀ _ hne
  have horth : ∑ i, (p i - q i) * ab i = 0 := by
    have : ∑ i, (p i - q i) * ab i = ∑ i, (p i - a i) * ab i - t * ∑ i, ab i * ab i := by
      rw [Finset.mul_sum, ← Finset.sum_sub_distrib]
      exact Finset.sum_congr rfl fun i _ => by rw [hqi]; ring
    rw [this, hts, sub_self]
  refine ⟨⟨t, hqi⟩, horth, ?_, ?_⟩
  · intro t'
    have : ∑ i, (p i - (a i + t' * ab i)) ^ 2 = ∑ i, (p i - q i) ^ 2 + 2 * (t - t') * ∑ i, (p i - q i) * ab i + ∑ i, ((t - t') * ab i) ^ 2 := by
      rw [Finset.mul_sum, ← Finset.sum_add_distrib, ← Finset.sum_add_distrib]
      exact Finset.sum_congr rfl fun i _ => by rw [hqi]; ring
    rw [this, horth]
    have : 0 ≤ ∑ i, ((t - t') * ab i) ^ 2 := Finset.sum_nonneg fun i _ => sq_nonneg _
    linarith
  · rw [hq q]
    funext i
    have : ∑ i, (q i - a i) * ab i = t * ∑ i, ab i * ab i := by
      rw [Finset.mul_sum]; exact Finset.sum_congr rfl fun i _ => by rw [hqi]; ring
    rw [this, mul_div_assoc, div_self hne, hqi]; ring

/-- **C62.** A direction that is not longer than the tolerance counts as zero: the projection is `a`. -/
theorem C62_no_direction {n : Nat} (eps : ℝ) (a ab p : Fin n → ℝ) (h : ∑ i, ab i * ab i ≤ eps) : projected eps a ab p = a := by
  unfold projected
  rw [if_neg]
  rw [dotProduct_real]; exact fun h' => absurd (of_decide_eq_true h') (not_lt.2 h)

example : (1 / 1000 : ℝ) < ∑ i : Fin 2, (![1, 1] : Fin 2 → ℝ) i * (![1, 1] : Fin 2 → ℝ) i ∧ projected (1 / 1000) ![0, 0] ![1, 1] ![2, 0] = ![(1 : ℝ), 1] := by
  constructor
  · simp [Fin.sum_univ_two]; norm_num
  · unfold projected
    rw [if_pos (by rw [dotProduct_real]; exact decide_eq_true (by simp [Fin.sum_univ_two]; norm_num)), dotProduct_real, dotProduct_real]
    funext i; fin_cases i <;> simp [Fin.sum_univ_two] <;> norm_num

/-! ## C63 -/

/-- The distance is the euclidean distance of the points scaled by the inverse standard deviations. -/
theorem normalizedDistance_eq {n : Nat} (a b var : Fin n → ℝ) (hv : ∀ i, 0 ≤ var i) :
    normalizedDistance a b var = dist (WithLp.toLp 2 fun i => a i / Real.sqrt (var i)) (WithLp.toLp 2 fun i => b i / Real.sqrt (var i)) := by
  unfold normalizedDistance
  rw [EuclideanSpace.dist_eq, sumFin_real]
  show Real.sqrt _ = _
  congr 1
  refine Finset.sum_congr rfl fun i _ => ?_
  rw [squared_real, Real.dist_eq, sq_abs, ← sub_div, div_pow, Real.sq_sqrt (hv i)]

/-- **C63.** For positive variances `normalized_distance` is a metric. -/
theorem C63_metric {n : Nat} (var : Fin n → ℝ) (hv : ∀ i, 0 < var i) (a b c : Fin n → ℝ) :
    0 ≤ normalizedDistance a b var ∧ (normalizedDistance a b var = 0 ↔ a = b) ∧ normalizedDistance a b var = normalizedDistance b a var ∧
    normalizedDistance a c var ≤ normalizedDistance a b var + normalizedDistance b c var := by
  simp only [normalizedDistance_eq _ _ var fun i => (hv i).le]
  refine ⟨dist_nonneg, ?_, dist_comm _ _, dist_triangle _ _ _⟩
  rw [dist_eq_zero]
  constructor
  · intro h
    funext i
    have := congrFun (congrArg WithLp.ofLp h) i
    have hs : Real.sqrt (var i) ≠ 0 := (Real.sqrt_pos.2 (hv i)).ne'
    simpa [div_left_inj' hs] using this
  · rintro rfl; rfl

/-- **C63.** The value: a difference of one standard deviation in one coordinate counts as one. -/
theorem C63_value {n : Nat} (a b var : Fin n → ℝ) : normalizedDistance a b var = Real.sqrt (∑ i, (a i - b i) ^ 2 / var i) := by
  unfold normalizedDistance; rw [sumFin_real]; simp only [squared_real]; rfl

/-- **C63.** `mahalanobis_distance` is the Mahalanobis distance if the covariance is diagonal with positive entries; in general it is the
normalized distance for the variances on the diagonal. -/
theorem C63_mahalanobis {n : Nat} (a b : Fin n → ℝ) (cov : Fin n → Fin n → ℝ) :
    mahalanobisDistance a b cov = normalizedDistance a b (fun i => cov i i) ∧
    ((∀ i j, i ≠ j → cov i j = 0) → (∀ i, 0 < cov i i) →
      mahalanobisDistance a b cov = Real.sqrt ((fun i => a i - b i) ⬝ᵥ ((Matrix.of cov)⁻¹.mulVec fun i => a i - b i))) := by
  refine ⟨rfl, fun hd hp => ?_⟩
  have hm : Matrix.of cov = Matrix.diagonal fun i => cov i i := by
    ext i j
    by_cases h : i = j
    · subst h; simp
    · simp [Matrix.diagonal_apply_ne _ h, hd i j h]
  have hinv : (Matrix.of cov)⁻¹ = Matrix.diagonal fun i => (cov i i)⁻¹ := by
    rw [hm]
    refine Matrix.inv_eq_right_inv ?_
    rw [Matrix.diagonal_mul_diagonal, ← Matrix.diagonal_one]
    congr 1; funext i; exact mul_inv_cancel₀ (hp i).ne'
  rw [hinv]
  show Real.sqrt _ = _
  congr 1
  rw [sumFin_real]
  simp only [Matrix.mulVec_diagonal, _root_.dotProduct, squared_real]
  exact Finset.sum_congr rfl fun i _ => by rw [div_eq_mul_inv]; ring

/-- Finding: off-diagonal elements are ignored, so it is not the Mahalanobis distance in general. -/
theorem C63_ignores_correlation {n : Nat} (a b : Fin n → ℝ) (cov cov' : Fin n → Fin n → ℝ) (h : ∀ i, cov i i = cov' i i) :
    mahalanobisDistance a b cov = mahalanobisDistance a b cov' := by unfold mahalanobisDistance; simp only [h]

/-! ## C64 -/

/-- **C64.** The mean and the population standard deviation of each coordinate. -/
theorem C64_mean_std {n : Nat} (pop : List (Fin n → ℝ)) (h : pop ≠ []) : ∃ mean std, computeMeanStd pop = .ok (mean, std) ∧
    (∀ i, mean i = (pop.map fun x => x i).sum / pop.length) ∧
    ∀ i, std i = Real.sqrt ((pop.map fun x => (x i - mean i) ^ 2).sum / pop.length) := by
  have hsum : ∀ (f : (Fin n → ℝ) → ℝ) (l : List (Fin n → ℝ)) (k : ℝ), (l.map fun x => f x / k).sum = (l.map f).sum / k := by
    intro f l k
    induction l with
    | nil => simp
    | cons a l ih => simp only [List.map_cons, List.sum_cons, ih, add_div]
  refine ⟨_, _, by unfold computeMeanStd; rw [if_neg h], ?_, ?_⟩
  · intro i
    unfold popMean
    rw [foldl_real, hsum]; simp
  · intro i
    show Real.sqrt _ = _
    rw [foldl_real, hsum]
    simp [squared_real]

/-- **C64.** Identical points: the point itself, deviation zero. -/
theorem C64_identical {n : Nat} (x : Fin n → ℝ) (k : Nat) : computeMeanStd (List.replicate (k + 1) x) = .ok (x, fun _ => 0) := by
  obtain ⟨mean, std, e, h1, h2⟩ := C64_mean_std (List.replicate (k + 1) x) (by simp)
  have hm : mean = x := by
    funext i; rw [h1]; simp only [List.map_replicate, List.sum_replicate, List.length_replicate, nsmul_eq_mul]
    field_simp
  rw [e, hm]
  congr 2
  funext i
  rw [h2, hm]; simp

/-- **C64.** The mean lies between the smallest and the largest value. -/
theorem C64_mean_between {n : Nat} (pop : List (Fin n → ℝ)) (h : pop ≠ []) (i : Fin n) (lo hi : ℝ) (hb : ∀ x ∈ pop, lo ≤ x i ∧ x i ≤ hi) :
    ∃ mean std, computeMeanStd pop = .ok (mean, std) ∧ lo ≤ mean i ∧ mean i ≤ hi ∧ 0 ≤ std i := by
  obtain ⟨mean, std, e, h1, h2⟩ := C64_mean_std pop h
  have hl : (0 : ℝ) < pop.length := by have := List.length_pos_iff.2 h; exact_mod_cast this
  refine ⟨mean, std, e, ?_, ?_, by rw [h2]; exact Real.sqrt_nonneg _⟩
  · rw [h1, le_div_iff₀ hl, mul_comm]
    have := List.card_nsmul_le_sum (pop.map fun x => x i) lo (by intro y hy; obtain ⟨x, hx, rfl⟩ := List.mem_map.1 hy; exact (hb x hx).1)
    simpa using this
  · rw [h1, div_le_iff₀ hl, mul_comm]
    have := List.sum_le_card_nsmul (pop.map fun x => x i) hi (by intro y hy; obtain ⟨x, hx, rfl⟩ := List.mem_map.1 hy; exact (hb x hx).2)
    simpa using this

/-! ## C81 -/

/-- **C81.** The fitness of a `data_objective` is the mean squared error: never negative, and zero exactly if the model explains all data. -/
theorem C81_mean_squared_error {X : Type} (model : X → ℝ) (data : List (X × ℝ)) (h : data ≠ []) :
    dataFitness model data = (data.map fun d => (model d.1 - d.2) ^ 2).sum / data.length ∧ 0 ≤ dataFitness model data ∧
    (dataFitness model data = 0 ↔ ∀ d ∈ data, model d.1 = d.2) := by
  have hl : (0 : ℝ) < data.length := by have := List.length_pos_iff.2 h; exact_mod_cast this
  obtain ⟨h1, h2⟩ := foldl_nonneg (fun d : X × ℝ => (model d.1 - d.2) ^ 2) data fun d _ => sq_nonneg _
  have e : dataFitness model data = data.foldl (fun s d => s + (model d.1 - d.2) ^ 2) 0 / data.length := by
    unfold dataFitness; simp [squared_real]
  refine ⟨by rw [e, foldl_real, zero_add], by rw [e]; positivity, ?_⟩
  rw [e, div_eq_zero_iff, or_iff_left hl.ne', h2]
  refine forall₂_congr fun d _ => ?_
  rw [pow_eq_zero_iff (by norm_num), sub_eq_zero]

/-- Finding: without data the fitness is NaN. -/
theorem C81_no_data [Libm] {X : Type} (model : X → Dbl) : dataFitness model [] = .nan := by
  show Dbl.div (Dbl.ofQ 0) (Dbl.ofQ ((0 : ℕ) : ℚ)) = .nan
  decide +kernel

end Spot
