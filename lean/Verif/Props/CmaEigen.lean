import Verif.Lemmas.CmaHouseholder
import Verif.Props.CmaSampling

/-! # The eigenvalue decomposition of CMA-ES (C82) -/

namespace Spot

open Matrix

section
variable {n : Nat}

/-- The largest absolute value of the form of a symmetric matrix bounds the norm. -/
theorem norm_of_form {E : Matrix (Fin n) (Fin n) ℝ} (hE : Eᵀ = E) {δ : ℝ} (hδ : 0 ≤ δ) (h : ∀ x, |x ⬝ᵥ (E *ᵥ x)| ≤ δ * (x ⬝ᵥ x)) (y : Fin n → ℝ) :
    (E *ᵥ y) ⬝ᵥ (E *ᵥ y) ≤ δ ^ 2 * (y ⬝ᵥ y) := by
  set w := E *ᵥ y with hw
  have hsym : ∀ u v : Fin n → ℝ, u ⬝ᵥ (E *ᵥ v) = v ⬝ᵥ (E *ᵥ u) := by
    intro u v
    rw [dotProduct_mulVec, ← mulVec_transpose, hE, _root_.dotProduct_comm]
  have key : ∀ t : ℝ, 4 * (t * (w ⬝ᵥ w)) ≤ 2 * δ * (t ^ 2 * (w ⬝ᵥ w) + y ⬝ᵥ y) := by
    intro t
    have h1 := (abs_le.1 (h (t • w + y))).2
    have h2 := (abs_le.1 (h (t • w - y))).1
    simp only [mulVec_add, mulVec_sub, mulVec_smul, add_dotProduct, sub_dotProduct, dotProduct_add, dotProduct_sub, smul_dotProduct, dotProduct_smul, smul_eq_mul] at h1 h2
    rw [hsym y w, ← hw] at h1 h2
    rw [_root_.dotProduct_comm y w] at h1 h2
    nlinarith
  rcases hδ.eq_or_lt with h0 | h0
  · have := key 1
    rw [← h0] at this ⊢
    nlinarith
  · have := key (1 / δ)
    have e1 : 4 * (1 / δ * (w ⬝ᵥ w)) = 4 * (w ⬝ᵥ w) / δ := by ring
    have e2 : 2 * δ * ((1 / δ) ^ 2 * (w ⬝ᵥ w) + y ⬝ᵥ y) = (2 * (w ⬝ᵥ w) + 2 * δ ^ 2 * (y ⬝ᵥ y)) / δ := by field_simp
    rw [e1, e2, div_le_div_iff_of_pos_right h0] at this
    linarith

theorem sym_asRows (C : Fin n → Fin n → ℝ) (i j : Fin n) :
    sym (fun i j => if j ≤ i then asRows C i j else asRows C j i) i j = Spec.symmOf C i j := by
  unfold sym asRows Spec.symmOf
  by_cases h : (j : Nat) ≤ i
  · have h' : j ≤ i := h
    simp [h, h']
  · have h' : ¬ j ≤ i := h
    have h'' : (i : Nat) ≤ j := by omega
    simp [h, h', h'']

theorem form_fin (C : Fin n → Fin n → ℝ) (x : Nat → ℝ) :
    dot n x (mv n (sym (fun i j => if j ≤ i then asRows C i j else asRows C j i)) x) = Spec.quad (Spec.symmOf C) (fun k => x k) := by
  rw [quad_eq]
  unfold dot mv _root_.dotProduct mulVec _root_.dotProduct
  rw [Finset.sum_range]
  refine Finset.sum_congr rfl fun i _ => ?_
  rw [Finset.sum_range]
  congr 1
  refine Finset.sum_congr rfl fun j _ => ?_
  rw [sym_asRows]
  rfl

/-- Everything about `Eigen`, for a bound `a` of the form. -/
theorem eigen_spec (hn : 1 ≤ n) (C : Fin n → Fin n → ℝ) {a : ℝ} (ha : ∀ x, |Spec.quad (Spec.symmOf C) x| ≤ a * (x ⬝ᵥ x)) :
    ∃ fuel d B tst1, (∀ fuel', fuel ≤ fuel' → eigenFin n fuel' C = some (.ok (d, B))) ∧ (Matrix.of B)ᵀ * Matrix.of B = 1 ∧ (∀ i j, i ≤ j → d i ≤ d j) ∧
      (∀ x, |Spec.quad (Spec.symmOf C) x - ∑ j, d j * ((Matrix.of B)ᵀ *ᵥ x) j ^ 2| ≤ 2 * n * qlEps * tst1 * (x ⬝ᵥ x)) ∧
      tst1 ≤ 3 * (a + 2 * n * qlEps * tst1) ∧ (0 : ℝ) ≤ tst1 := by
  have ha0 : 0 ≤ a := by
    have := (abs_nonneg _).trans (ha (Pi.single ⟨0, hn⟩ 1))
    simpa using this
  set s : HH ℝ := { V := fun i j => if j ≤ i then asRows C i j else asRows C j i, d := fun _ => lit 0, e := fun _ => lit 0 } with hs
  obtain ⟨h1, h2⟩ := householder_spec hn s
  obtain ⟨fuel, d, V, tst1, g1, g2, g3, g4, g5, g6⟩ := ql_spec hn (A := fun x => dot n x (mv n (sym s.V) x)) ha0 (fun x => by
    rw [hs]
    dsimp only
    rw [form_fin, sqNorm_eq]
    exact ha _) h1 h2
  refine ⟨fuel, fun i => d i, fun i j => V i j, tst1, fun fuel' hf => ?_, orth_matrix g2, fun i j hij => g3 i j hij j.2, fun x => ?_, g5, g6⟩
  · unfold eigenFin eigen
    rw [← hs, g1 fuel' hf]
  · have := g4 (extend x)
    rw [hs] at this
    dsimp only at this
    rw [form_fin, sqNorm_eq, extend_fin] at this
    unfold diagForm at this
    rw [Finset.sum_range] at this
    simp only [coord_eq, extend_fin] at this
    exact this

/-- **C82.** In exact arithmetic `Eigen` ends for every symmetric matrix, whatever its elements, with no access outside the arrays. -/
theorem C82_total (hn : 1 ≤ n) (C : Fin n → Fin n → ℝ) : ∃ fuel d B, ∀ fuel', fuel ≤ fuel' → eigenFin n fuel' C = some (.ok (d, B)) := by
  have ha : ∀ x, |Spec.quad (Spec.symmOf C) x| ≤ (∑ i, ∑ j, |Spec.symmOf C i j|) * (x ⬝ᵥ x) := by
    intro x
    unfold Spec.quad
    rw [Finset.sum_mul]
    refine (Finset.abs_sum_le_sum_abs _ _).trans (Finset.sum_le_sum fun i _ => ?_)
    rw [Finset.sum_mul]
    refine (Finset.abs_sum_le_sum_abs _ _).trans (Finset.sum_le_sum fun j _ => ?_)
    have hle : ∀ k, x k ^ 2 ≤ x ⬝ᵥ x := by
      intro k
      have : x k * x k ≤ ∑ k, x k * x k := Finset.single_le_sum (f := fun k => x k * x k) (fun k _ => mul_self_nonneg (x k)) (Finset.mem_univ k)
      rw [pow_two]
      exact this
    rw [show x i * Spec.symmOf C i j * x j = Spec.symmOf C i j * (x i * x j) by ring, abs_mul]
    refine mul_le_mul_of_nonneg_left ?_ (abs_nonneg _)
    rw [abs_le]
    constructor <;> nlinarith [hle i, hle j, sq_nonneg (x i + x j), sq_nonneg (x i - x j)]
  obtain ⟨fuel, d, B, -, h, -⟩ := eigen_spec hn C ha
  exact ⟨fuel, d, B, h⟩

/-- **C82.** The columns of the result are orthonormal, the eigenvalues are in ascending order, and column `j` with eigenvalue `j` satisfies the
eigenvalue equation with a residual of at most 7 n eps |C|, where |C| is any bound of the form of the matrix (such as the absolute value of its largest
eigenvalue) and eps = 2.22e-16; so does the sum of the squared coordinates weighted with the eigenvalues, for the form of the matrix. -/
theorem C82_decomposition (hn : 1 ≤ n) (hn' : n ≤ 10 ^ 14) (C : Fin n → Fin n → ℝ) {a : ℝ} (ha : ∀ x, |Spec.quad (Spec.symmOf C) x| ≤ a * (x ⬝ᵥ x)) :
    ∃ fuel d B, (∀ fuel', fuel ≤ fuel' → eigenFin n fuel' C = some (.ok (d, B))) ∧ (Matrix.of B)ᵀ * Matrix.of B = 1 ∧ (∀ i j, i ≤ j → d i ≤ d j) ∧
      (∀ j, let b := fun i => B i j
        let r := Matrix.of (Spec.symmOf C) *ᵥ b - d j • b
        r ⬝ᵥ r ≤ (7 * n * (222 / 10 ^ 18) * a) ^ 2) ∧
      ∀ x, |Spec.quad (Spec.symmOf C) x - ∑ j, d j * ((Matrix.of B)ᵀ *ᵥ x) j ^ 2| ≤ 7 * n * (222 / 10 ^ 18) * a * (x ⬝ᵥ x) := by
  obtain ⟨fuel, d, B, tst1, h1, h2, h3, h4, h5, h6⟩ := eigen_spec hn C ha
  have ha0 : 0 ≤ a := by
    have := (abs_nonneg _).trans (ha (Pi.single ⟨0, hn⟩ 1))
    simpa using this
  have hq : (qlEps : ℝ) = 222 / 10 ^ 18 := by unfold qlEps; rw [lit_real]; push_cast; ring
  rw [hq] at h4 h5
  have hnr : (n : ℝ) ≤ 10 ^ 14 := by exact_mod_cast hn'
  have hn0 : (1 : ℝ) ≤ n := by exact_mod_cast hn
  have ht : tst1 ≤ 7 / 2 * a := by nlinarith
  set δ : ℝ := 7 * n * (222 / 10 ^ 18) * a with hδ
  have hδ0 : 0 ≤ δ := by positivity
  have hform : ∀ x, |Spec.quad (Spec.symmOf C) x - ∑ j, d j * ((Matrix.of B)ᵀ *ᵥ x) j ^ 2| ≤ δ * (x ⬝ᵥ x) := by
    intro x
    refine (h4 x).trans (mul_le_mul_of_nonneg_right ?_ ?_)
    · rw [hδ]
      nlinarith
    · exact Finset.sum_nonneg fun i _ => mul_self_nonneg (x i)
  refine ⟨fuel, d, B, h1, h2, h3, fun j => ?_, hform⟩
  -- the residual
  set S := Matrix.of (Spec.symmOf C) with hS
  set U := Matrix.of B with hU
  set E := S - U * diagonal d * Uᵀ with hE
  have hSt : Sᵀ = S := by
    ext i j
    exact symmOf_symm C j i
  have hEt : Eᵀ = E := by
    rw [hE, transpose_sub, hSt, transpose_mul, transpose_mul, transpose_transpose, diagonal_transpose, Matrix.mul_assoc]
  have hEx : ∀ x, x ⬝ᵥ (E *ᵥ x) = Spec.quad (Spec.symmOf C) x - ∑ j, d j * (Uᵀ *ᵥ x) j ^ 2 := by
    intro x
    rw [hE, sub_mulVec, dotProduct_sub, ← quad_eq]
    congr 1
    rw [Matrix.mul_assoc, ← mulVec_mulVec, dotProduct_mulVec, ← mulVec_transpose, ← mulVec_mulVec]
    unfold _root_.dotProduct
    refine Finset.sum_congr rfl fun j _ => ?_
    rw [mulVec_diagonal]
    ring
  have hn2 := norm_of_form hEt hδ0 (fun x => by rw [hEx x]; exact hform x) (fun i => B i j)
  have hcol : (fun i => B i j) = U *ᵥ Pi.single j 1 := by
    funext i
    simp [hU]
  have hEb : E *ᵥ (fun i => B i j) = S *ᵥ (fun i => B i j) - d j • fun i => B i j := by
    rw [hE, sub_mulVec]
    congr 1
    rw [hcol, mulVec_mulVec, Matrix.mul_assoc, h2, Matrix.mul_one, ← mulVec_mulVec]
    have : diagonal d *ᵥ Pi.single j 1 = d j • (Pi.single j 1 : Fin n → ℝ) := by
      funext i
      rw [mulVec_diagonal]
      by_cases hij : i = j
      · subst hij; simp
      · simp [hij]
    rw [this, mulVec_smul]
  have hbb : (fun i => B i j) ⬝ᵥ (fun i => B i j) = 1 := by
    have := congrFun (congrFun h2 j) j
    rw [Matrix.one_apply_eq] at this
    exact this
  dsimp only
  rw [← hEb]
  rw [hbb, mul_one] at hn2
  exact hn2

/-- **C82.** If the form of the matrix is at least `b` on unit vectors, the eigenvalues are at least `b - 7 n eps |C|`: for a positive definite matrix
whose condition number is below `1 / (7 n eps)` they are positive, and their square roots (`rgD`) are positive numbers. -/
theorem C82_positive (hn : 1 ≤ n) (hn' : n ≤ 10 ^ 14) (C : Fin n → Fin n → ℝ) {a b : ℝ} (hb : ∀ x, b * (x ⬝ᵥ x) ≤ Spec.quad (Spec.symmOf C) x)
    (ha : ∀ x, |Spec.quad (Spec.symmOf C) x| ≤ a * (x ⬝ᵥ x)) :
    ∃ fuel d B, (∀ fuel', fuel ≤ fuel' → eigenFin n fuel' C = some (.ok (d, B))) ∧ ∀ j, b - 7 * n * (222 / 10 ^ 18) * a ≤ d j := by
  obtain ⟨fuel, d, B, h1, h2, -, -, h4⟩ := C82_decomposition hn hn' C ha
  refine ⟨fuel, d, B, h1, fun j => ?_⟩
  have h5 := (abs_le.1 (h4 fun i => B i j)).2
  have h6 := hb fun i => B i j
  have hbb : (fun i => B i j) ⬝ᵥ (fun i => B i j) = 1 := by
    have := congrFun (congrFun h2 j) j
    rw [Matrix.one_apply_eq] at this
    exact this
  have hco : ∀ k, ((Matrix.of B)ᵀ *ᵥ fun i => B i j) k = if k = j then 1 else 0 := by
    intro k
    have := congrFun (congrFun h2 k) j
    rw [Matrix.one_apply] at this
    exact this
  have hsum : ∑ k, d k * ((Matrix.of B)ᵀ *ᵥ fun i => B i j) k ^ 2 = d j := by
    rw [Finset.sum_eq_single j]
    · rw [hco, if_pos rfl]; ring
    · intro k _ hk; rw [hco, if_neg hk]; ring
    · intro h; exact absurd (Finset.mem_univ j) h
  rw [hsum, hbb, mul_one] at h5
  rw [hbb, mul_one] at h6
  linarith

variable {G : GaussSrc ℝ}

/-- **C82.** In exact arithmetic `sample_population` returns in every state, with the program's own eigenvalue decomposition. -/
theorem C82_sample_returns (hn : 1 ≤ n) (tr : (Fin n → ℝ) → Fin n → ℝ) (b : Bounds ℝ n) (p : CmaPar ℝ) (s : Cma G n) :
    ∃ fuel r, ∀ fuel', fuel ≤ fuel' → s.sampleRun fuel' tr b p = some (.ok r) := by
  by_cases hc : s.callsEigen p = true
  · obtain ⟨fuel, d, B, h⟩ := C82_total hn s.C
    refine ⟨fuel, s.sample tr b (fun _ => (d, B)) p, fun fuel' hf => ?_⟩
    unfold Cma.sampleRun
    rw [if_pos hc, h fuel' hf]
  · refine ⟨0, s.sample tr b (fun _ => (fun _ => lit 0, fun _ _ => lit 0)) p, fun fuel' _ => ?_⟩
    unfold Cma.sampleRun
    rw [if_neg hc]

/-- **C82.** In exact arithmetic the program's `Eigen` is a function of the matrix, and `sample_population` with it is `Cma.sample`: what is proved for
every eigenvalue decomposition (C50, C53-C56, C76-C79) holds for the program. -/
theorem C82_program_eig (hn : 1 ≤ n) : ∃ eig : Eig ℝ n, (∀ C, ∃ fuel, ∀ fuel', fuel ≤ fuel' → eigenFin n fuel' C = some (.ok (eig C))) ∧
    ∀ (tr : (Fin n → ℝ) → Fin n → ℝ) (b : Bounds ℝ n) (p : CmaPar ℝ) (s : Cma G n), ∃ fuel, ∀ fuel', fuel ≤ fuel' → s.sampleRun fuel' tr b p = some (.ok (s.sample tr b eig p)) := by
  choose fuel d B h using C82_total (n := n) hn
  refine ⟨fun C => (d C, B C), fun C => ⟨fuel C, h C⟩, fun tr b p s => ?_⟩
  by_cases hc : s.callsEigen p = true
  · refine ⟨fuel s.C, fun fuel' hf => ?_⟩
    unfold Cma.sampleRun
    rw [if_pos hc, h s.C fuel' hf]
    rfl
  · refine ⟨0, fun fuel' _ => ?_⟩
    unfold Cma.sampleRun
    rw [if_neg hc]
    have : s.prepare (fun _ => (fun _ => lit 0, fun _ _ => lit 0)) p = s.prepare (fun C => (d C, B C)) p := by
      unfold Cma.callsEigen at hc
      unfold Cma.prepare Cma.updateEigen
      by_cases h1 : s.eigenUptodate = true
      · rw [if_pos h1, if_pos h1]
      by_cases h2 : s.flgdiag p = true
      · rw [if_neg h1, if_pos h2, if_neg h1, if_pos h2]
      by_cases h3 : Arith.lt (lit (s.gen : ℚ)) (lit (s.genOfEigen : ℚ) + p.modulo) = true
      · rw [if_neg h1, if_neg h2, if_neg h1, if_pos h3, if_neg h1, if_neg h2, if_neg h1, if_pos h3]
      · refine absurd ?_ hc
        rw [Bool.not_eq_true] at h1 h2 h3
        rw [h1, h2, h3]
        rfl
    unfold Cma.sample Cma.samplePopulation
    rw [this]

/-- **C82.** When it decomposes a covariance matrix `C` (bounds `c` and `a` of its form, condition number below `1 / (7 n eps)`), the points are sampled
with an orthogonal `B` and positive `D` for which the form of `B D^2 B^T` differs from that of `C` by at most 7 n eps |C|. -/
theorem C82_sampled_distribution (hn : 1 ≤ n) (hn' : n ≤ 10 ^ 14) (tr : (Fin n → ℝ) → Fin n → ℝ) (b : Bounds ℝ n) (p : CmaPar ℝ) (s : Cma G n) (hc : s.callsEigen p = true)
    {a c : ℝ} (ha : ∀ x, Spec.quad (Spec.symmOf s.C) x ≤ a * (x ⬝ᵥ x)) (hb : ∀ x, c * (x ⬝ᵥ x) ≤ Spec.quad (Spec.symmOf s.C) x) (hcond : 7 * n * (222 / 10 ^ 18) * a < c) :
    ∃ fuel t xs, (∀ fuel', fuel ≤ fuel' → s.sampleRun fuel' tr b p = some (.ok (t, xs))) ∧ t.C = s.C ∧ (Matrix.of t.B)ᵀ * Matrix.of t.B = 1 ∧ (∀ i, 0 < t.D i) ∧
      ∀ x, |Spec.quad (Spec.symmOf s.C) x - x ⬝ᵥ ((Matrix.of t.B * diagonal (fun i => t.D i ^ 2) * (Matrix.of t.B)ᵀ) *ᵥ x)| ≤ 7 * n * (222 / 10 ^ 18) * a * (x ⬝ᵥ x) := by
  have hxx : ∀ x : Fin n → ℝ, 0 ≤ x ⬝ᵥ x := fun x => Finset.sum_nonneg fun i _ => mul_self_nonneg (x i)
  have hn0 : (1 : ℝ) ≤ n := by exact_mod_cast hn
  have hca : c ≤ a := by
    have h1 := (hb (Pi.single ⟨0, hn⟩ 1)).trans (ha (Pi.single ⟨0, hn⟩ 1))
    simpa using h1
  have hc0 : 0 < c := by
    by_contra h
    push Not at h
    rcases le_or_gt 0 a with h1 | h1
    · have : 0 ≤ 7 * n * (222 / 10 ^ 18) * a := by positivity
      linarith
    · have hnr : (n : ℝ) ≤ 10 ^ 14 := by exact_mod_cast hn'
      nlinarith
  have ha' : ∀ x, |Spec.quad (Spec.symmOf s.C) x| ≤ a * (x ⬝ᵥ x) := fun x =>
    abs_le.2 ⟨by have := mul_nonneg hc0.le (hxx x); have := hb x; have := mul_nonneg (hc0.le.trans hca) (hxx x); linarith, ha x⟩
  obtain ⟨fuel, d, B, h1, h2, -, -, h4⟩ := C82_decomposition hn hn' s.C ha'
  obtain ⟨fuel2, d2, B2, g1, g2⟩ := C82_positive hn hn' s.C hb ha'
  obtain ⟨rfl, rfl⟩ : d = d2 ∧ B = B2 := by
    have e := (h1 (max fuel fuel2) (le_max_left _ _)).symm.trans (g1 (max fuel fuel2) (le_max_right _ _))
    simp only [Option.some.injEq, Res.ok.injEq, Prod.mk.injEq] at e
    exact e
  have hpos : ∀ j, 0 < d j := fun j => lt_of_lt_of_le (by linarith) (g2 j)
  have hup : s.eigenUptodate = false ∧ s.flgdiag p = false ∧ Arith.lt (lit (s.gen : ℚ)) (lit (s.genOfEigen : ℚ) + p.modulo) = false := by
    unfold Cma.callsEigen at hc
    simp only [Bool.and_eq_true, Bool.not_eq_true'] at hc
    exact ⟨hc.1.1, hc.1.2, hc.2⟩
  set eig : Eig ℝ n := fun _ => (d, B) with heig
  have hprep : s.prepare eig p = { s with D := fun i => Real.sqrt (d i), B := B, eigenUptodate := true, genOfEigen := s.gen } := by
    unfold Cma.prepare Cma.updateEigen
    rw [hup.1, hup.2.1, hup.2.2]
    rfl
  have hsame : (s.samplePopulation eig p).SameE (s.sample tr b eig p).1 := Cma.boundedLoop_same tr b (List.range p.lambda) _
  have hB : (s.sample tr b eig p).1.B = B := by
    rw [hsame.B]
    show (s.prepare eig p).B = B
    rw [hprep]
  have hD : (s.sample tr b eig p).1.D = fun i => Real.sqrt (d i) := by
    rw [hsame.D]
    show (s.prepare eig p).D = _
    rw [hprep]
  have hC : (s.sample tr b eig p).1.C = s.C := by
    rw [hsame.C]
    show (s.prepare eig p).C = _
    rw [hprep]
  refine ⟨fuel, (s.sample tr b eig p).1, (s.sample tr b eig p).2, fun fuel' hf => ?_, hC, by rw [hB]; exact h2, fun i => ?_, fun x => ?_⟩
  · unfold Cma.sampleRun
    rw [if_pos hc, h1 fuel' hf]
  · rw [hD]; exact Real.sqrt_pos.2 (hpos i)
  · have e1 : x ⬝ᵥ ((Matrix.of (s.sample tr b eig p).1.B * diagonal (fun i => (s.sample tr b eig p).1.D i ^ 2) * (Matrix.of (s.sample tr b eig p).1.B)ᵀ) *ᵥ x) =
        ∑ j, d j * ((Matrix.of B)ᵀ *ᵥ x) j ^ 2 := by
      rw [hB, hD, Matrix.mul_assoc, ← mulVec_mulVec, dotProduct_mulVec, ← mulVec_transpose, ← mulVec_mulVec]
      unfold _root_.dotProduct
      refine Finset.sum_congr rfl fun j _ => ?_
      rw [mulVec_diagonal, Real.sq_sqrt (hpos j).le]
      ring
    rw [e1]
    exact h4 x

/-- The hypotheses of `C82_decomposition`, `C82_positive` and `C82_sampled_distribution` hold for the matrix with rows (2, 1) and (1, 2). -/
def exCov : Fin 2 → Fin 2 → ℝ := fun i j => if i = j then 2 else 1

theorem exCov_form (x : Fin 2 → ℝ) : 1 * (x ⬝ᵥ x) ≤ Spec.quad (Spec.symmOf exCov) x ∧ Spec.quad (Spec.symmOf exCov) x ≤ 3 * (x ⬝ᵥ x) := by
  have e : Spec.quad (Spec.symmOf exCov) x = 2 * x 0 ^ 2 + 2 * (x 0 * x 1) + 2 * x 1 ^ 2 := by
    unfold Spec.quad
    simp only [Fin.sum_univ_two]
    simp [Spec.symmOf, exCov]
    ring
  have e2 : x ⬝ᵥ x = x 0 ^ 2 + x 1 ^ 2 := by
    unfold _root_.dotProduct
    rw [Fin.sum_univ_two]; ring
  rw [e, e2]
  constructor <;> nlinarith [sq_nonneg (x 0 + x 1), sq_nonneg (x 0 - x 1)]

example : ∃ fuel d B, (∀ fuel', fuel ≤ fuel' → eigenFin 2 fuel' exCov = some (.ok (d, B))) ∧ ∀ j, 1 - 7 * (2 : Nat) * (222 / 10 ^ 18) * 3 ≤ d j :=
  C82_positive (by norm_num) (by norm_num) exCov (fun x => (exCov_form x).1) fun x => by
    have h := exCov_form x
    rw [abs_of_nonneg (h.1.trans' (by rw [one_mul]; exact Finset.sum_nonneg fun i _ => mul_self_nonneg (x i)))]
    exact h.2

example : 7 * ((2 : Nat) : ℝ) * (222 / 10 ^ 18) * 3 < 1 := by norm_num

end

end Spot
