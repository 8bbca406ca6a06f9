import Verif.Lemmas.Cma

/-! # Runs of CMA-ES (C53, C54, C55) -/

namespace Spot

/-! ## C53 and C54: exact arithmetic -/

section
variable {n : Nat} {G : GaussSrc ℝ}

theorem flgdiag_false {p : CmaPar ℝ} (hd : p.diagonalCov = 0) {s : Cma G n} (hg : 1 ≤ s.gen) : s.flgdiag p = false := by
  unfold Cma.flgdiag
  rw [hd]
  simp
  omega

/-- The update of the covariance matrix: the old matrix, one rank-one term and `mu` more. -/
theorem newC_real {p : CmaPar ℝ} (hd : p.diagonalCov = 0) (hm : 1 ≤ p.mucov) (hc0 : 0 < p.ccov) (hc1 : p.ccov < 1) {s : Cma G n} (hg : 1 ≤ s.gen)
    (hs : Bool) (i j : Fin n) : s.newC p hs i j =
      (1 - p.ccov + p.ccov / p.mucov * (if hs then 0 else 1) * p.ccumcov * (2 - p.ccumcov)) * s.C i j + p.ccov / p.mucov * (s.pc i * s.pc j) +
      ∑ k ∈ Finset.range p.mu, p.ccov * (1 - 1 / p.mucov) / s.sigma ^ 2 * p.weights.getD k 0 * ((s.ranked k i - s.xold i) * (s.ranked k j - s.xold j)) := by
  have e1 : Cma.ccov1 p n false = p.ccov / p.mucov := by
    unfold Cma.ccov1
    simp only [min_real, lit_real, Rat.cast_one, Bool.false_eq_true, if_false, mul_one, mul_one_div]
    refine min_eq_left ?_
    rw [div_le_one (by linarith)]
    linarith
  have e2 : Cma.ccovmu p n false = p.ccov * (1 - 1 / p.mucov) := by
    unfold Cma.ccovmu
    rw [e1]
    simp only [min_real, lit_real, Rat.cast_one, Bool.false_eq_true, if_false, mul_one]
    refine min_eq_left ?_
    have : p.ccov * (1 - 1 / p.mucov) = p.ccov - p.ccov / p.mucov := by ring
    linarith
  unfold Cma.newC
  rw [flgdiag_false hd hg, e1, e2]
  dsimp only
  refine (foldl_real _ _ _).trans ?_
  have e3 : ∀ f : Nat → ℝ, ((List.range p.mu).map f).sum = ∑ k ∈ Finset.range p.mu, f k := fun f => rfl
  rw [e3]
  congr 1
  · simp only [lit_real]
    cases hs <;> simp only [Bool.false_eq_true, if_false, if_true] <;> push_cast <;> ring
  · refine Finset.sum_congr rfl fun k _ => ?_
    simp only [lit_real]
    push_cast
    ring

/-- The quadratic form of the new covariance matrix. -/
theorem quad_new {p : CmaPar ℝ} (hd : p.diagonalCov = 0) (hm : 1 ≤ p.mucov) (hc0 : 0 < p.ccov) (hc1 : p.ccov < 1) {s : Cma G n} (hg : 1 ≤ s.gen)
    (hs : Bool) (x : Fin n → ℝ) : Spec.quad (Spec.symmOf (s.adaptC p hs).C) x =
      (1 - p.ccov + p.ccov / p.mucov * (if hs then 0 else 1) * p.ccumcov * (2 - p.ccumcov)) * Spec.quad (Spec.symmOf s.C) x +
      p.ccov / p.mucov * (∑ i, x i * s.pc i) ^ 2 +
      ∑ k ∈ Finset.range p.mu, p.ccov * (1 - 1 / p.mucov) / s.sigma ^ 2 * p.weights.getD k 0 * (∑ i, x i * (s.ranked k i - s.xold i)) ^ 2 := by
  have hC : ∀ i j, Spec.symmOf (s.adaptC p hs).C i j =
      (1 - p.ccov + p.ccov / p.mucov * (if hs then 0 else 1) * p.ccumcov * (2 - p.ccumcov)) * Spec.symmOf s.C i j + p.ccov / p.mucov * (s.pc i * s.pc j) +
      ∑ k ∈ Finset.range p.mu, p.ccov * (1 - 1 / p.mucov) / s.sigma ^ 2 * p.weights.getD k 0 * ((s.ranked k i - s.xold i) * (s.ranked k j - s.xold j)) := by
    intro i j
    unfold Spec.symmOf Cma.adaptC
    have : Arith.eq p.ccov (lit 0) = false := by simp [hc0.ne']
    rw [this, flgdiag_false hd hg]
    simp only [Bool.false_eq_true, if_false]
    split
    · rw [newC_real hd hm hc0 hc1 hg]
    · rename_i h
      rw [if_pos (le_of_not_ge h), newC_real hd hm hc0 hc1 hg]
      congr 1
      · congr 1; ring
      · exact Finset.sum_congr rfl fun k _ => by ring
  unfold Spec.quad
  simp only [hC]
  set a := (1 - p.ccov + p.ccov / p.mucov * (if hs then 0 else 1) * p.ccumcov * (2 - p.ccumcov)) with ha
  set M := Spec.symmOf s.C
  have hsq : ∀ y : Fin n → ℝ, (∑ i, x i * y i) ^ 2 = ∑ i, ∑ j, x i * (y i * y j) * x j := by
    intro y
    rw [pow_two, Finset.sum_mul_sum]
    exact Finset.sum_congr rfl fun i _ => Finset.sum_congr rfl fun j _ => by ring
  simp only [mul_add, add_mul, Finset.sum_add_distrib]
  congr 1
  · congr 1
    · rw [Finset.mul_sum]
      refine Finset.sum_congr rfl fun i _ => ?_
      rw [Finset.mul_sum]
      exact Finset.sum_congr rfl fun j _ => by ring
    · rw [hsq, Finset.mul_sum]
      refine Finset.sum_congr rfl fun i _ => ?_
      rw [Finset.mul_sum]
      exact Finset.sum_congr rfl fun j _ => by ring
  · simp only [hsq, Finset.mul_sum, Finset.sum_mul]
    rw [Finset.sum_comm (s := Finset.range p.mu)]
    refine Finset.sum_congr rfl fun i _ => ?_
    rw [Finset.sum_comm (s := Finset.range p.mu)]
    exact Finset.sum_congr rfl fun j _ => Finset.sum_congr rfl fun k _ => by ring

theorem symmOf_symm (L : Fin n → Fin n → ℝ) (i j : Fin n) : Spec.symmOf L i j = Spec.symmOf L j i := by
  unfold Spec.symmOf
  split <;> split <;> rename_i h1 h2
  · rw [le_antisymm h1 h2]
  · rfl
  · rfl
  · exact absurd (le_of_not_ge h1) h2

/-- What holds between the calls. -/
structure Cma.Inv (p : CmaPar ℝ) (s : Cma G n) : Prop where
  sigma : 0 < s.sigma
  posDef : Spec.PosDef (Spec.symmOf s.C)
  gen : s.state = 1 → 1 ≤ s.gen

variable {opt : Int} {modulo : ℝ} {p : CmaPar ℝ}

/-- The state in which the covariance matrix is adapted. -/
theorem adapt_C (p : CmaPar ℝ) (s : Cma G n) : ∃ (t : Cma G n) (hs : Bool), (s.adapt p).C = (t.adaptC p hs).C ∧ t.C = s.C ∧ t.gen = s.gen ∧
    t.sigma = s.sigma ∧ (∃ q, (s.adapt p).sigma = s.sigma * Real.exp ((Real.sqrt q / p.chiN - 1) * p.cs / p.damps)) ∧ (s.adapt p).gen = s.gen ∧
    (s.adapt p).state = 3 := by
  obtain ⟨h1, h2, -, -, -, -, -, -, h3, h4⟩ := Cma.adapt_fields p s
  refine ⟨s.paths p, _, h3, rfl, rfl, rfl, ⟨(s.paths p).psxps, ?_⟩, h1, h2⟩
  rw [h4]
  simp only [sqrt_real, exp_real, lit_real, Rat.cast_one]

theorem rank_fields (p : CmaPar ℝ) (s : Cma G n) (fs : List Dbl) : (s.rank p fs).C = s.C ∧ (s.rank p fs).gen = s.gen ∧
    ((s.rank p fs).sigma = s.sigma ∨ (s.rank p fs).sigma = s.sigma * Real.exp (1 / 5 + p.cs / p.damps)) := by
  refine ⟨rfl, rfl, ?_⟩
  unfold Cma.rank
  dsimp only
  split
  · right; simp only [exp_real, lit_real]; push_cast; rfl
  · left; rfl

/-- A successful update. -/
theorem update_spec (hn : 1 ≤ n) (hp : CmaPar.make ℝ n opt modulo = .ok p) {s : Cma G n} (h : s.Inv p) (hst : s.state = 1) (fs : List Dbl) :
    ((s.rank p fs).adapt p).Inv p ∧ (∀ x, (1 - p.ccov) * Spec.quad (Spec.symmOf s.C) x ≤ Spec.quad (Spec.symmOf ((s.rank p fs).adapt p).C) x) ∧
    s.sigma * Real.exp (-(p.cs / p.damps)) ≤ ((s.rank p fs).adapt p).sigma := by
  obtain ⟨q1, q2, q3, q4, q5, q6, q7, q8, q9, q10, q11, q12, q13, q14, q15, q16, q17, q18, q19, q20⟩ := C51_parameters n hn opt modulo p hp
  obtain ⟨r1, r2, r3⟩ := rank_fields p s fs
  obtain ⟨t, hs, t1, t2, t3, t4, ⟨q, t5⟩, t6, t7⟩ := adapt_C p (s.rank p fs)
  have hm : 1 ≤ p.mucov := by rw [q9]; exact q7
  have hg : 1 ≤ t.gen := by rw [t3, r2]; exact h.gen hst
  have hcoef : 0 ≤ p.ccov / p.mucov := by positivity
  have hcc : 0 ≤ p.ccov / p.mucov * (if hs then 0 else 1) * p.ccumcov * (2 - p.ccumcov) := by
    have : (0 : ℝ) ≤ if hs then 0 else 1 := by split <;> norm_num
    have h2 : 0 ≤ 2 - p.ccumcov := by linarith
    positivity
  have hw : ∀ k, 0 ≤ p.weights.getD k 0 := by
    intro k
    rw [List.getD_eq_getElem?_getD]
    cases hk : p.weights[k]? with
    | none => simp
    | some v => exact (q5 v (List.mem_of_getElem? hk)).le
  have hq : ∀ x, (1 - p.ccov) * Spec.quad (Spec.symmOf s.C) x ≤ Spec.quad (Spec.symmOf ((s.rank p fs).adapt p).C) x := by
    intro x
    rw [t1, quad_new q20 hm q14 q15 hg, t2, r1]
    have hx : 0 ≤ Spec.quad (Spec.symmOf s.C) x := by
      by_cases h0 : x = 0
      · subst h0; simp [Spec.quad]
      · exact (h.posDef.2 x h0).le
    have a1 : 0 ≤ p.ccov / p.mucov * (∑ i, x i * t.pc i) ^ 2 := by positivity
    have a2 : 0 ≤ ∑ k ∈ Finset.range p.mu, p.ccov * (1 - 1 / p.mucov) / t.sigma ^ 2 * p.weights.getD k 0 * (∑ i, x i * (t.ranked k i - t.xold i)) ^ 2 := by
      refine Finset.sum_nonneg fun k _ => ?_
      have := hw k
      have h3 : 0 ≤ 1 - 1 / p.mucov := by rw [sub_nonneg, div_le_one (by linarith)]; exact hm
      positivity
    have a3 := mul_nonneg hcc hx
    nlinarith
  have hsig : s.sigma * Real.exp (-(p.cs / p.damps)) ≤ ((s.rank p fs).adapt p).sigma := by
    rw [t5]
    have b1 : s.sigma ≤ (s.rank p fs).sigma := by
      rcases r3 with r3 | r3
      · exact r3.ge
      · rw [r3]
        refine le_mul_of_one_le_right h.sigma.le (Real.one_le_exp ?_)
        positivity
    refine mul_le_mul b1 (Real.exp_le_exp.2 ?_) (Real.exp_pos _).le (h.sigma.le.trans b1)
    have b2 : 0 ≤ Real.sqrt q / p.chiN := by positivity
    have b3 : 0 < p.cs / p.damps := by positivity
    have : (Real.sqrt q / p.chiN - 1) * p.cs / p.damps = Real.sqrt q / p.chiN * (p.cs / p.damps) - p.cs / p.damps := by ring
    rw [this]
    have := mul_nonneg b2 b3.le
    linarith
  refine ⟨⟨lt_of_lt_of_le (mul_pos h.sigma (Real.exp_pos _)) hsig, ⟨symmOf_symm _, fun x hx => ?_⟩, fun hh => ?_⟩, hq, hsig⟩
  · refine lt_of_lt_of_le (mul_pos (by linarith) (h.posDef.2 x hx)) (hq x)
  · rw [t7] at hh; cases hh

theorem call_inv (hn : 1 ≤ n) (hp : CmaPar.make ℝ n opt modulo = .ok p) (b : Bounds ℝ n) (mn : Bool) (eig : Eig ℝ n) {s : Cma G n} (h : s.Inv p)
    (c : CmaCall ℝ n) : (s.call b mn eig p c).1.Inv p := by
  cases c with
  | sample tr =>
    obtain ⟨h1, h2, h3, h4⟩ := s.sample_same tr b eig p
    refine ⟨?_, ?_, fun _ => ?_⟩
    · show 0 < (s.sample tr b eig p).1.sigma
      rw [h1.sigma]; exact h.sigma
    · show Spec.PosDef (Spec.symmOf (s.sample tr b eig p).1.C)
      rw [h1.C]; exact h.posDef
    · show 1 ≤ (s.sample tr b eig p).1.gen
      rw [h4]
      split <;> omega
  | update fs =>
    show (s.update p mn fs).1.Inv p
    rcases s.update_cases p mn fs with ⟨hst, -, he⟩ | ⟨-, he⟩
    · rw [he]; exact (update_spec hn hp h hst _).1
    · rw [he]; exact h

theorem init_inv (hn : 1 ≤ n) (m std : Fin n → ℝ) (hstd : ∀ i, 0 < std i) (e : G.St) : (Cma.init p m std e).Inv p := by
  have : Nonempty (Fin n) := ⟨⟨0, by omega⟩⟩
  have hn' : (0 : ℝ) < n := by exact_mod_cast hn
  have htr : 0 < ∑ i, std i * std i := Finset.sum_pos (fun i _ => mul_pos (hstd i) (hstd i)) Finset.univ_nonempty
  have hd : ∀ i, 0 < std i * Real.sqrt (n / ∑ i, std i * std i) := fun i => mul_pos (hstd i) (Real.sqrt_pos.2 (div_pos hn' htr))
  refine ⟨?_, ⟨symmOf_symm _, fun x hx => ?_⟩, fun h => by cases h⟩
  · show (0 : ℝ) < Arith.sqrt ((sumFin fun i => std i * std i) / lit (n : ℚ))
    simp only [sumFin_real, sqrt_real, lit_real]
    push_cast
    exact Real.sqrt_pos.2 (div_pos htr hn')
  · have hC : ∀ i j, Spec.symmOf (Cma.init p m std e : Cma G n).C i j = if i = j then (std i * Real.sqrt (n / ∑ i, std i * std i)) ^ 2 else 0 := by
      intro i j
      unfold Spec.symmOf Cma.init
      simp only [sumFin_real, sqrt_real, lit_real, Rat.cast_zero, Rat.cast_natCast]
      by_cases hij : i = j
      · subst hij; simp [pow_two]
      · simp [hij, Ne.symm hij]
    unfold Spec.quad
    simp only [hC, mul_ite, ite_mul, mul_zero, zero_mul, Finset.sum_ite_eq, Finset.mem_univ, if_true]
    obtain ⟨i, hi⟩ := Function.ne_iff.1 hx
    refine Finset.sum_pos' (fun i _ => ?_) ⟨i, Finset.mem_univ i, ?_⟩
    · have := sq_nonneg (x i * (std i * Real.sqrt (n / ∑ i, std i * std i)))
      nlinarith
    · have : 0 < (x i * (std i * Real.sqrt (n / ∑ i, std i * std i))) ^ 2 := by
        have := mul_ne_zero hi (hd i).ne'
        positivity
      nlinarith

theorem calls_inv (hn : 1 ≤ n) (hp : CmaPar.make ℝ n opt modulo = .ok p) (b : Bounds ℝ n) (mn : Bool) (eig : Eig ℝ n) {s0 s : Cma G n} (h0 : s0.Inv p)
    {cs : List (CmaCall ℝ n × Res Unit)} (h : Cma.Calls b mn eig p s0 cs s) : s.Inv p := by
  induction h with
  | nil => exact h0
  | snoc h c ih => exact call_inv hn hp b mn eig ih c

/-- **C53.** Exact arithmetic. After any sequence of `sample_population` and `update_distribution` calls of a CMA optimizer with positive initial
standard deviations, the covariance matrix is symmetric and positive definite; whatever the fitnesses, random numbers, bounds, boundary
transformers and eigenvalue decompositions are. So every entry of `current_std` is positive. -/
theorem C53_positive_definite (hn : 1 ≤ n) (hp : CmaPar.make ℝ n opt modulo = .ok p) (m std : Fin n → ℝ) (hstd : ∀ i, 0 < std i) (e : G.St)
    (b : Bounds ℝ n) (minimize : Bool) (eig : Eig ℝ n) {cs : List (CmaCall ℝ n × Res Unit)} {s : Cma G n}
    (h : Cma.Calls b minimize eig p (Cma.init p m std e) cs s) : Spec.PosDef (Spec.symmOf s.C) ∧ ∀ i, 0 < s.std i := by
  have hi := calls_inv hn hp b minimize eig (init_inv hn m std hstd e) h
  refine ⟨hi.posDef, fun i => ?_⟩
  have h1 : 0 < s.C i i := by
    have h2 := hi.posDef.2 (Pi.single i 1) (by simp)
    have h3 : Spec.quad (Spec.symmOf s.C) (Pi.single i 1) = s.C i i := by
      unfold Spec.quad
      rw [Finset.sum_eq_single i, Finset.sum_eq_single i]
      · simp [Spec.symmOf]
      · intro j _ hj; simp [hj]
      · simp
      · intro k _ hk
        exact Finset.sum_eq_zero fun j _ => by simp [hk]
      · simp
    rw [h3] at h2
    exact h2
  unfold Cma.std
  exact mul_pos hi.sigma (Real.sqrt_pos.2 h1)

/-- **C53.** `current_covariance` returns the lower triangle of that matrix, row by row: row `i` has the elements `0 .. i`. -/
theorem C53_rows (s : Cma G n) : s.covRows.length = n ∧ ∀ i : Fin n, (s.covRows[(i : Nat)]?.map List.length) = some (i.val + 1) ∧
    ∀ j : Fin n, j ≤ i → (s.covRows[(i : Nat)]?.bind fun r => r[(j : Nat)]?) = some (Spec.symmOf s.C i j) := by
  refine ⟨by simp [Cma.covRows], fun i => ⟨by simp [Cma.covRows, List.getElem?_ofFn], fun j hj => ?_⟩⟩
  have : (j : Nat) < i + 1 := Nat.lt_succ_of_le hj
  unfold Cma.covRows
  rw [List.getElem?_ofFn, dif_pos i.2, Option.bind_some, List.getElem?_ofFn, dif_pos this]
  simp [Spec.symmOf, hj]

/-- **C53.** No update shrinks the variance in any direction by more than the factor `1 - ccov`. -/
theorem C53_shrink (hn : 1 ≤ n) (hp : CmaPar.make ℝ n opt modulo = .ok p) (m std : Fin n → ℝ) (hstd : ∀ i, 0 < std i) (e : G.St)
    (b : Bounds ℝ n) (minimize : Bool) (eig : Eig ℝ n) {cs : List (CmaCall ℝ n × Res Unit)} {s : Cma G n}
    (h : Cma.Calls b minimize eig p (Cma.init p m std e) cs s) (fs : List Dbl) (x : Fin n → ℝ) :
    (1 - p.ccov) * Spec.quad (Spec.symmOf s.C) x ≤ Spec.quad (Spec.symmOf (s.update p minimize fs).1.C) x := by
  have hi := calls_inv hn hp b minimize eig (init_inv hn m std hstd e) h
  obtain ⟨q1, q2, q3, q4, q5, q6, q7, q8, q9, q10, q11, q12, q13, q14, q15, -⟩ := C51_parameters n hn opt modulo p hp
  have hx : 0 ≤ Spec.quad (Spec.symmOf s.C) x := by
    by_cases h0 : x = 0
    · subst h0; simp [Spec.quad]
    · exact (hi.posDef.2 x h0).le
  have hle : (1 - p.ccov) * Spec.quad (Spec.symmOf s.C) x ≤ Spec.quad (Spec.symmOf s.C) x := by
    have := mul_nonneg q14.le hx
    linarith
  rcases s.update_cases p minimize fs with ⟨hst, -, he⟩ | ⟨-, he⟩
  · rw [he]; exact (update_spec hn hp hi hst _).2.1 x
  · rw [he]; exact hle

/-- **C54.** Exact arithmetic. The step size is positive after any sequence of calls, and no call makes it smaller than `exp( -cs / damps )` times what it was. -/
theorem C54_step_size (hn : 1 ≤ n) (hp : CmaPar.make ℝ n opt modulo = .ok p) (m std : Fin n → ℝ) (hstd : ∀ i, 0 < std i) (e : G.St)
    (b : Bounds ℝ n) (minimize : Bool) (eig : Eig ℝ n) {cs : List (CmaCall ℝ n × Res Unit)} {s : Cma G n}
    (h : Cma.Calls b minimize eig p (Cma.init p m std e) cs s) :
    0 < s.sigma ∧ ∀ c, s.sigma * Real.exp (-(p.cs / p.damps)) ≤ (s.call b minimize eig p c).1.sigma := by
  have hi := calls_inv hn hp b minimize eig (init_inv hn m std hstd e) h
  obtain ⟨q1, q2, q3, q4, q5, q6, q7, q8, q9, q10, q11, q12, q13, q14, q15, q16, -⟩ := C51_parameters n hn opt modulo p hp
  have hle : s.sigma * Real.exp (-(p.cs / p.damps)) ≤ s.sigma := by
    refine mul_le_of_le_one_right hi.sigma.le (Real.exp_le_one_iff.2 ?_)
    have := div_pos q10 q16
    linarith
  refine ⟨hi.sigma, fun c => ?_⟩
  cases c with
  | sample tr =>
    show _ ≤ (s.sample tr b eig p).1.sigma
    rw [(s.sample_same tr b eig p).1.sigma]
    exact hle
  | update fs =>
    show _ ≤ (s.update p minimize fs).1.sigma
    rcases s.update_cases p minimize fs with ⟨hst, -, he⟩ | ⟨-, he⟩
    · rw [he]; exact (update_spec hn hp hi hst _).2.2
    · rw [he]; exact hle

end

/-! ## C55: any arithmetic -/

section
variable {K : Type} [Arith K] {n : Nat} {G : GaussSrc K}

/-- The calls that succeeded. -/
def succeeded (cs : List (CmaCall K n × Res Unit)) : List (CmaCall K n) := (cs.filter fun c => c.2 = .ok ()).map Prod.fst

/-- Whether a call is an update. -/
def CmaCall.isUpdate : CmaCall K n → Bool
  | .sample _ => false
  | .update _ => true

/-- Whether the last of the calls is sampling. -/
def lastIsSample (cs : List (CmaCall K n)) : Bool :=
  match cs.getLast? with
  | some c => !c.isUpdate
  | none => false

theorem calls_phase {b : Bounds K n} {mn : Bool} {eig : Eig K n} {p : CmaPar K} {m std : Fin n → K} {e : G.St} {cs : List (CmaCall K n × Res Unit)}
    {s : Cma G n} (h : Cma.Calls b mn eig p (Cma.init p m std e) cs s) :
    s.state = (if lastIsSample (succeeded cs) then 1 else if (succeeded cs).isEmpty then 0 else 3) ∧
    s.gen = ((succeeded cs).countP CmaCall.isUpdate) + (if lastIsSample (succeeded cs) then 1 else 0) ∧
    ((succeeded cs).isEmpty = true → (succeeded cs).countP CmaCall.isUpdate = 0) ∧
    ((succeeded cs).isEmpty = false → lastIsSample (succeeded cs) = false → 0 < (succeeded cs).countP CmaCall.isUpdate) := by
  induction h with
  | nil => exact ⟨rfl, rfl, fun _ => rfl, fun h => by cases h⟩
  | @snoc cs s h c ih =>
    obtain ⟨h1, h2, h3, h4⟩ := ih
    cases c with
    | sample tr =>
      have e1 : succeeded (cs ++ [(CmaCall.sample tr, (s.call b mn eig p (.sample tr)).2)]) = succeeded cs ++ [.sample tr] := by
        simp [succeeded, Cma.call]
      have e2 : lastIsSample (succeeded cs ++ [CmaCall.sample tr]) = true := by simp [lastIsSample, CmaCall.isUpdate]
      obtain ⟨-, g2, -, g4⟩ := s.sample_same tr b eig p
      rw [e1, e2]
      refine ⟨g2, ?_, by simp, by simp⟩
      refine g4.trans ?_
      rw [List.countP_append, h1, h2]
      have e3 : List.countP CmaCall.isUpdate [(CmaCall.sample tr : CmaCall K n)] = 0 := by simp [CmaCall.isUpdate]
      rw [e3]
      cases hls : lastIsSample (succeeded cs) <;> cases hem : (succeeded cs).isEmpty
      · simp
      · simp [h3 hem]
      · simp
      · simp
    | update fs =>
      have hcall : (s.call b mn eig p (.update fs)) = s.update p mn fs := rfl
      rcases s.update_cases p mn fs with ⟨hst, -, e0⟩ | ⟨-, e0⟩
      · have hls : lastIsSample (succeeded cs) = true := by
          by_contra hh
          rw [Bool.not_eq_true] at hh
          rw [hh, hst] at h1
          simp only [Bool.false_eq_true, if_false] at h1
          split at h1 <;> cases h1
        rw [hcall, e0]
        have e1 : succeeded (cs ++ [(CmaCall.update fs, Res.ok ())]) = succeeded cs ++ [.update fs] := by simp [succeeded]
        rw [e1]
        have e2 : lastIsSample (succeeded cs ++ [CmaCall.update fs]) = false := by simp [lastIsSample, CmaCall.isUpdate]
        rw [e2]
        refine ⟨?_, ?_, by simp, fun _ _ => ?_⟩
        · simp [(Cma.adapt_fields p _).2.1]
        · have : ((s.rank p (if mn then fs else fs.map Dbl.neg)).adapt p).gen = s.gen := by
            unfold Cma.adapt
            exact (Cma.adaptC_fields p _ _).2.2.1
          rw [this, h2, hls, List.countP_append]
          simp [CmaCall.isUpdate]
        · rw [List.countP_append]
          simp [CmaCall.isUpdate]
      · rw [hcall, e0]
        have e1 : succeeded (cs ++ [(CmaCall.update fs, Res.err)]) = succeeded cs := by simp [succeeded]
        rw [e1]
        exact ⟨h1, h2, h3, h4⟩

/-- **C55.** After any sequence of calls (in any arithmetic), `update_distribution` succeeds if and only if the last call that succeeded was
`sample_population` and there is one fitness for each individual; otherwise it throws and changes nothing. -/
theorem C55_update_succeeds_iff {b : Bounds K n} {mn : Bool} {eig : Eig K n} {p : CmaPar K} {m std : Fin n → K} {e : G.St}
    {cs : List (CmaCall K n × Res Unit)} {s : Cma G n} (h : Cma.Calls b mn eig p (Cma.init p m std e) cs s) (fs : List Dbl) :
    ((s.update p mn fs).2 = .ok () ↔ lastIsSample (succeeded cs) = true ∧ fs.length = p.lambda) ∧
    ((s.update p mn fs).2 ≠ .ok () → s.update p mn fs = (s, .err)) := by
  obtain ⟨h1, -, -, -⟩ := calls_phase h
  have hst : s.state = 1 ↔ lastIsSample (succeeded cs) = true := by
    rw [h1]
    cases lastIsSample (succeeded cs) <;> cases (succeeded cs).isEmpty <;> simp
  rw [← hst]
  rcases s.update_cases p mn fs with ⟨h2, h3, e0⟩ | ⟨h2, e0⟩
  · rw [e0]; exact ⟨iff_of_true rfl ⟨h2, h3⟩, fun hh => absurd rfl hh⟩
  · rw [e0]; exact ⟨iff_of_false (by simp) h2, fun _ => rfl⟩

/-- **C55.** The generation counter is the number of successful updates, plus one if the population sampled last has not been used yet. -/
theorem C55_generation {b : Bounds K n} {mn : Bool} {eig : Eig K n} {p : CmaPar K} {m std : Fin n → K} {e : G.St}
    {cs : List (CmaCall K n × Res Unit)} {s : Cma G n} (h : Cma.Calls b mn eig p (Cma.init p m std e) cs s) :
    s.gen = ((succeeded cs).countP CmaCall.isUpdate) + (if lastIsSample (succeeded cs) then 1 else 0) := (calls_phase h).2.1

end

/-- The hypotheses can be met: three calls, of which the second fails, in dimension 2 with four individuals. -/
example : ∃ (p : CmaPar ℝ) (G : GaussSrc ℝ) (e : G.St) (s : Cma G 2), CmaPar.make ℝ 2 4 (-1) = .ok p ∧ p.lambda = 4 ∧
    Cma.Calls ⟨fun _ => -10, fun _ => 10⟩ true (fun C => (fun i => C i i, fun i j => if i = j then 1 else 0)) p (Cma.init p (fun _ => 1) (fun _ => 1) e)
      [(.sample id, .ok ()), (.update [], .err), (.update [.fin 1, .fin 2, .fin 3, .fin 4], .ok ())] s := by
  obtain ⟨p, hp, hl⟩ := C51_defined (K := ℝ) 2 4 (-1) (by norm_num)
  have hl' : p.lambda = 4 := by exact_mod_cast hl
  let G : GaussSrc ℝ := ⟨Nat, fun k => (k, k + 1)⟩
  let b : Bounds ℝ 2 := ⟨fun _ => -10, fun _ => 10⟩
  let eig : Eig ℝ 2 := fun C => (fun i => C i i, fun i j => if i = j then 1 else 0)
  let s0 : Cma G 2 := Cma.init p (fun _ => 1) (fun _ => 1) (0 : Nat)
  have h1 := (Cma.Calls.nil (b := b) (minimize := true) (eig := eig) (p := p) (s0 := s0)).snoc (.sample id)
  have h2 := h1.snoc (.update [])
  have e2 := (C55_update_succeeds_iff h1 [])
  have r2 : ((s0.call b true eig p (.sample id)).1.update p true []) = (_, .err) := e2.2 (fun hh => by
    have := (e2.1.1 hh).2; rw [hl'] at this; simp at this)
  have h3 := h2.snoc (.update [.fin 1, .fin 2, .fin 3, .fin 4])
  have e3 := (C55_update_succeeds_iff h2 [.fin 1, .fin 2, .fin 3, .fin 4])
  have r2' : (((s0.call b true eig p (.sample id)).1.call b true eig p (.update [])).2 : Res Unit) = .err := by
    show (((s0.call b true eig p (.sample id)).1.update p true []).2) = .err
    rw [r2]
  have r3 := e3.1.2 ⟨by simp only [r2']; simp [succeeded, lastIsSample, Cma.call, CmaCall.isUpdate], by rw [hl']; rfl⟩
  have r3' : (((s0.call b true eig p (.sample id)).1.call b true eig p (.update [])).1.call b true eig p (.update [.fin 1, .fin 2, .fin 3, .fin 4])).2 = .ok () := r3
  rw [r3', r2'] at h3
  exact ⟨p, G, (0 : Nat), _, hp, hl', h3⟩

end Spot
