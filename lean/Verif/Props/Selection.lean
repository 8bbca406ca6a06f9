import Verif.Props.Evolution
import Verif.Spec.Evolution

/-! # Selection in mes_optimizer and eva_optimizer (C46) -/

namespace Spot

variable {n : Nat}

theorem better_neg {info : ObjInfo} {x y : Dbl} (h : info.isBetter y x = false) :
    if info.minimize then Dbl.lt y x = false else Dbl.lt x y = false := by
  unfold ObjInfo.isBetter at h
  split at h <;> simp_all

theorem take_isSelection {info : ObjInfo} {fs : List Dbl} {order : List Nat} (ho : SortedOrder info fs order) (hn : Dbl.nan ∉ fs) {m : Nat}
    (hm : m ≤ fs.length) : Spec.IsSelection info.minimize fs m (order.take m) := by
  have hl : order.length = fs.length := by rw [ho.1.length_eq, List.length_range]
  have hnd : order.Nodup := ho.1.nodup_iff.2 List.nodup_range
  refine ⟨by rw [List.length_take]; omega, hnd.sublist (List.take_sublist ..),
    fun i hi => List.mem_range.1 (ho.1.mem_iff.1 (List.mem_of_mem_take hi)), ?_⟩
  intro i hi j hj x y hx hy
  have hj2 : j ∈ order := ho.1.mem_iff.2 (List.mem_range.2 (List.getElem?_eq_some_iff.1 hy).1)
  rw [← List.take_append_drop m order] at hj2
  have hj3 : j ∈ order.drop m := (List.mem_append.1 hj2).resolve_left hj
  have hp := ho.2 hn
  rw [← List.take_append_drop m order, List.pairwise_append] at hp
  exact better_neg (hp.2.2 i hi j hj3 x y hx hy)

/-- **C46.** Whenever `update_distribution` returns, it has used `mu` different individuals, none of which is worse than an individual it
has not used; and it gives the same result for every other population that agrees in these individuals, whatever the others are. For every
fitness vector without NaN, population and distribution, in floating-point and in exact arithmetic. -/
theorem C46_uses_the_best {K : Type} [Arith K] (alg : EsAlg K) (eps : K) (mu : Int) (s s' : Es K n) (info : ObjInfo) (fs : List Dbl)
    (hn : Dbl.nan ∉ fs) (order : List Nat) (ho : SortedOrder info fs order) (pop : List (Fin n → K)) (hp : pop.length = fs.length)
    (h : updateDistribution alg eps mu s order pop = .ok s') :
    ∃ idx, Spec.IsSelection info.minimize fs mu.toNat idx ∧
      ∀ pop' : List (Fin n → K), (∀ i ∈ idx, pop'[i]? = pop[i]?) → updateDistribution alg eps mu s order pop' = .ok s' := by
  obtain ⟨sel', h1, rfl⟩ := update_selected h
  have h2 := selected_ok h1
  have hl : order.length = fs.length := by rw [ho.1.length_eq, List.length_range]
  refine ⟨order.take mu.toNat, take_isSelection ho hn (by omega), fun pop' hpop => ?_⟩
  unfold updateDistribution
  have : selected mu order pop' = selected mu order pop := by
    unfold selected
    rw [gather_congr hpop]
  rw [this, h1]
  rfl

/-- **C46.** With NaN among the fitnesses the selected individuals are still `mu` different ones. -/
theorem C46_count {K : Type} [Arith K] (alg : EsAlg K) (eps : K) (mu : Int) (s s' : Es K n) (info : ObjInfo) (fs : List Dbl)
    (order : List Nat) (ho : SortedOrder info fs order) (pop : List (Fin n → K)) (hp : pop.length = fs.length)
    (h : updateDistribution alg eps mu s order pop = .ok s') :
    ∃ idx : List Nat, idx.length = mu.toNat ∧ idx.Nodup ∧ (∀ i ∈ idx, i < fs.length) ∧
      ∀ pop' : List (Fin n → K), (∀ i ∈ idx, pop'[i]? = pop[i]?) → updateDistribution alg eps mu s order pop' = .ok s' := by
  obtain ⟨sel', h1, rfl⟩ := update_selected h
  have h2 := selected_ok h1
  have hl : order.length = fs.length := by rw [ho.1.length_eq, List.length_range]
  refine ⟨order.take mu.toNat, by rw [List.length_take]; omega,
    (ho.1.nodup_iff.2 List.nodup_range).sublist (List.take_sublist ..),
    fun i hi => List.mem_range.1 (ho.1.mem_iff.1 (List.mem_of_mem_take hi)), fun pop' hpop => ?_⟩
  unfold updateDistribution
  have : selected mu order pop' = selected mu order pop := by
    unfold selected
    rw [gather_congr hpop]
  rw [this, h1]
  rfl

/-- **C46.** `update_distribution` reads outside of the population exactly if `mu` is negative or larger than the population. -/
theorem C46_out_of_bounds {K : Type} [Arith K] (alg : EsAlg K) (eps : K) (mu : Int) (s : Es K n) (info : ObjInfo) (fs : List Dbl)
    (order : List Nat) (ho : SortedOrder info fs order) (pop : List (Fin n → K)) (hp : pop.length = fs.length) :
    (updateDistribution alg eps mu s order pop = .ub ↔ mu < 0 ∨ (pop.length : Int) < mu) ∧
    (updateDistribution alg eps mu s order pop = .ub ∨ ∃ s', updateDistribution alg eps mu s order pop = .ok s') := by
  have hs := selected_iff (mu := mu) (pop := pop) (order := order) (by rw [hp]; exact ho.1)
  unfold updateDistribution
  rcases hs.2 with h | ⟨sel', h⟩
  · rw [h] at hs ⊢
    exact ⟨iff_of_true rfl (hs.1.1 rfl), .inl rfl⟩
  · rw [h] at hs ⊢
    exact ⟨iff_of_false (by intro h; cases h) (fun h => by have := hs.1.2 h; cases this), .inr ⟨_, rfl⟩⟩

theorem selMean_average (sel' : List (Fin n → ℝ)) {mu : Int} (h0 : 0 ≤ mu) (hl : sel'.length = mu.toNat) (j : Fin n) :
    selMean sel' mu j = Spec.average (fun x => x j) sel' := by
  unfold selMean Spec.average
  have : (sel'.foldl (fun a x => a + x j) (lit 0)) = (sel'.map (fun x => x j)).sum := by
    refine (foldl_real (fun x => x j) sel' _).trans ?_
    rw [lit_real, Rat.cast_zero, zero_add]
  rw [this, lit_real, hl]
  congr 1
  have : ((mu.toNat : ℤ) : ℝ) = (mu : ℝ) := by exact_mod_cast Int.toNat_of_nonneg h0
  push_cast at this ⊢
  exact this.symm

theorem selVar_average (eps : ℝ) (s : Es ℝ n) (sel' : List (Fin n → ℝ)) {mu : Int} (h0 : 0 ≤ mu) (hl : sel'.length = mu.toNat) (j : Fin n) :
    selVar eps s sel' mu j = Spec.average (fun x => (x j - projected eps s.mean s.mom x j) ^ 2) sel' := by
  unfold selVar Spec.average
  have : (sel'.foldl (fun a x => a + squared (x j - projected eps s.mean s.mom x j)) (lit 0)) =
      (sel'.map (fun x => (x j - projected eps s.mean s.mom x j) ^ 2)).sum := by
    refine (foldl_real (fun x => squared (x j - projected eps s.mean s.mom x j)) sel' _).trans ?_
    rw [lit_real, Rat.cast_zero, zero_add]
    simp only [squared_real]
  rw [this, lit_real, hl]
  congr 1
  have : ((mu.toNat : ℤ) : ℝ) = (mu : ℝ) := by exact_mod_cast Int.toNat_of_nonneg h0
  push_cast at this ⊢
  exact this.symm

/-- **C46.** What EVA computes from the selected individuals `best`, in exact arithmetic: the mean moves by `step_size` towards their average,
the evolution path follows the difference of their average to the old mean, and the variance follows their average squared distance to
the line through the old mean along the old evolution path, coordinate by coordinate. -/
theorem C46_eva (o : EvaOpts ℝ) (eps : ℝ) (mu : Int) (s s' : Es ℝ n) (order : List Nat) (pop : List (Fin n → ℝ))
    (h : updateDistribution (.eva o) eps mu s order pop = .ok s') :
    ∃ best : List (Fin n → ℝ), (order.take mu.toNat).map (fun i => pop[i]?) = best.map some ∧ ∀ j,
      s'.mean j = s.mean j + o.stepSize * (Spec.average (fun x => x j) best - s.mean j) ∧
      s'.mom j = (1 - o.evUpdate) * s.mom j + o.evUpdate * (Spec.average (fun x => x j) best - s.mean j) ∧
      s'.var j = (1 - o.varUpdate) * s.var j + o.varUpdate * Spec.average (fun x => (x j - projected eps s.mean s.mom x j) ^ 2) best := by
  obtain ⟨sel', h1, rfl⟩ := update_selected h
  have h2 := selected_ok h1
  refine ⟨sel', h2.2.2.2, fun j => ?_⟩
  rw [← selMean_average sel' h2.1 h2.2.2.1, ← selVar_average eps s sel' h2.1 h2.2.2.1]
  have e : ((1 : ℚ) : ℝ) = 1 := Rat.cast_one
  refine ⟨rfl, ?_, ?_⟩
  · rw [← e]; rfl
  · rw [← e]; rfl

/-- **C46.** The same for MES: with momentum the mean moves by `mean_sigma` times the updated momentum, without it by `mean_sigma` towards
the average. -/
theorem C46_mes (o : MesOpts ℝ) (eps : ℝ) (mu : Int) (s s' : Es ℝ n) (order : List Nat) (pop : List (Fin n → ℝ))
    (h : updateDistribution (.mes o) eps mu s order pop = .ok s') :
    ∃ best : List (Fin n → ℝ), (order.take mu.toNat).map (fun i => pop[i]?) = best.map some ∧ ∀ j,
      (0 < o.momSigma → s'.mom j = (1 - o.momSigma) * s.mom j + o.momSigma * (Spec.average (fun x => x j) best - s.mean j) ∧
        s'.mean j = s.mean j + o.meanSigma * s'.mom j) ∧
      (o.momSigma ≤ 0 → s'.mom j = s.mom j ∧ s'.mean j = s.mean j + o.meanSigma * (Spec.average (fun x => x j) best - s.mean j)) ∧
      s'.var j = (1 - o.varSigma) * s.var j + o.varSigma * Spec.average (fun x => (x j - projected eps s.mean s.mom x j) ^ 2) best := by
  obtain ⟨sel', h1, rfl⟩ := update_selected h
  have h2 := selected_ok h1
  refine ⟨sel', h2.2.2.2, fun j => ?_⟩
  rw [← selMean_average sel' h2.1 h2.2.2.1, ← selVar_average eps s sel' h2.1 h2.2.2.1]
  have e : ((1 : ℚ) : ℝ) = 1 := Rat.cast_one
  refine ⟨fun hm => ?_, fun hm => ?_, ?_⟩
  · show (mesUpdateWith eps o mu s sel').mom j = _ ∧ (mesUpdateWith eps o mu s sel').mean j = _ + _ * (mesUpdateWith eps o mu s sel').mom j
    unfold mesUpdateWith
    rw [if_pos (by rw [lt_real, lit_real, Rat.cast_zero, decide_eq_true_eq]; exact hm)]
    refine ⟨?_, rfl⟩
    rw [← e]; rfl
  · show (mesUpdateWith eps o mu s sel').mom j = _ ∧ (mesUpdateWith eps o mu s sel').mean j = _
    unfold mesUpdateWith
    rw [if_neg (by rw [lt_real, lit_real, Rat.cast_zero, decide_eq_true_eq]; exact not_lt.2 hm)]
    refine ⟨rfl, ?_⟩
    show upd (s.mean j) (selMean sel' mu j) o.meanSigma = _
    unfold upd
    rw [lit_real, Rat.cast_one]
    ring
  · rw [updateWith_var, ← e]; rfl

/-- **C46.** With the default options the numbers of individuals are valid: an objective of any dimension has a population of at least 4, namely 4 + ⌊3 log m⌋,
and between 2 and all of them are selected (for the exact logarithm, and dimensions whose population fits an `int`). A `lambda` of 1, or a negative one, has the same effect as the default 0;
a `lambda` of at least 2 is taken as it is. -/
theorem C46_default_sizes (m : Nat) (hm : 1 ≤ m) (hf : 3 * Real.log m ≤ 2147483647) : ∃ lambda : Int, (∀ o ≤ 1, esLambda ℝ o m = .ok lambda) ∧ lambda = 4 + ⌊3 * Real.log m⌋ ∧ 4 ≤ lambda ∧
    2 ≤ esMu 0 lambda ∧ esMu 0 lambda ≤ lambda ∧ (∀ o ≥ 2, esLambda ℝ o m = .ok o ∧ 1 ≤ esMu 0 o ∧ esMu 0 o ≤ o) := by
  have h0 : 0 ≤ 3 * Real.log m := mul_nonneg (by norm_num) (Real.log_nonneg (by exact_mod_cast hm))
  have hz : 0 ≤ ⌊3 * Real.log m⌋ := Int.floor_nonneg.2 h0
  have hz2 : ⌊3 * Real.log m⌋ ≤ 2147483647 := by
    have : (⌊3 * Real.log m⌋ : ℝ) ≤ 2147483647 := (Int.floor_le _).trans hf
    exact_mod_cast this
  have e : (Arith.trunc (lit 3 * Arith.log (lit (m : ℚ)) : ℝ)) = some ⌊3 * Real.log m⌋ := by
    show (if fitsInt (if 0 ≤ ((3 : ℚ) : ℝ) * Real.log ((m : ℚ) : ℝ) then ⌊((3 : ℚ) : ℝ) * Real.log ((m : ℚ) : ℝ)⌋
      else ⌈((3 : ℚ) : ℝ) * Real.log ((m : ℚ) : ℝ)⌉) then some (if 0 ≤ ((3 : ℚ) : ℝ) * Real.log ((m : ℚ) : ℝ) then
      ⌊((3 : ℚ) : ℝ) * Real.log ((m : ℚ) : ℝ)⌋ else ⌈((3 : ℚ) : ℝ) * Real.log ((m : ℚ) : ℝ)⌉) else none) = _
    have e1 : ((3 : ℚ) : ℝ) * Real.log ((m : ℚ) : ℝ) = 3 * Real.log m := by norm_num
    rw [e1, if_pos h0, if_pos ⟨by omega, hz2⟩]
  refine ⟨4 + ⌊3 * Real.log m⌋, fun o ho => ?_, rfl, by omega, ?_, ?_, fun o ho => ⟨by unfold esLambda; rw [if_pos (by omega)], ?_, ?_⟩⟩
  · unfold esLambda
    rw [if_neg (by omega), e]
  · unfold esMu; simp only [ne_eq, not_true_eq_false, if_false]; omega
  · unfold esMu; simp only [ne_eq, not_true_eq_false, if_false]; omega
  · unfold esMu; simp only [ne_eq, not_true_eq_false, if_false]; omega
  · unfold esMu; simp only [ne_eq, not_true_eq_false, if_false]; omega

/-- **C46 (finding).** A MES or EVA optimizer cannot be constructed with default options for an objective without free parameters: the
logarithm of 0 is converted to `int`. -/
theorem C46_no_parameters [Libm] (h : ∀ x, Libm.log (.fin 0) ≠ .fin x) : esLambda Dbl 0 0 = .ub := by
  unfold esLambda
  rw [if_neg (by norm_num)]
  have e0 : (lit ((0 : Nat) : ℚ) : Dbl) = .fin 0 := by rw [Nat.cast_zero]; exact Dbl.ofQ_zero
  have e3 : (lit 3 : Dbl) = .fin 3 := by show Dbl.ofQ 3 = _; decide +kernel
  rw [e0, e3]
  have : Arith.trunc ((.fin 3 : Dbl) * Arith.log (.fin 0 : Dbl)) = none := by
    show Arith.trunc (Dbl.mul (.fin 3) (Libm.log (.fin 0))) = none
    cases hl : Libm.log (.fin 0) with
    | fin q => exact absurd hl (h q)
    | nan => rfl
    | pinf => rfl
    | ninf => rfl
  rw [this]

/-- Four individuals with two ties: the two best are selected, and the theorem applies. -/
example : SortedOrder ({ minimize := true } : ObjInfo) [.fin 3, .fin 1, .fin 2, .fin 1] [3, 1, 2, 0] := by
  refine ⟨by decide, fun _ => ?_⟩
  simp [ObjInfo.isBetter, List.pairwise_cons, Dbl.lt]
  norm_num
example : letI := noLibm; ∃ s', updateDistribution (.eva (EvaOpts.default (K := Dbl))) (.fin 0) 2 (Es.init (fun _ => .fin 0) fun _ => .fin 1)
    [3, 1, 2, 0] [fun _ : Fin 2 => .fin 8, fun _ => .fin 1, fun _ => .fin 9, fun _ => .fin 3] = .ok s' := ⟨_, rfl⟩

end Spot
