import Verif.Lemmas.Float
import Verif.Props.TestObjectives

/-! # Sums of floating-point numbers that are not negative -/

namespace Spot

theorem bin64_nat (n : ℕ) (h : n < 2 ^ 53) : bin64 (n : ℚ) = n := by
  have := bin64_int (n : Int) (by rw [abs_of_nonneg (by positivity)]; exact_mod_cast h)
  exact_mod_cast this

theorem bin64_nonneg {q : ℚ} (h : 0 ≤ q) : 0 ≤ bin64 q := by
  have := bin64_mono h; rwa [bin64_zero] at this

/-- Rounding of numbers that are not tiny. -/
theorem bin64_rel {q : ℚ} (h : 1 / 100 ≤ q) : q * (1 - 1 / 2 ^ 52) ≤ bin64 q ∧ bin64 q ≤ q * (1 + 1 / 2 ^ 52) := by
  have h1 := bin64_err q
  rw [abs_of_nonneg (by linarith : 0 ≤ q)] at h1
  have h2 : (1:ℚ) / 2 ^ 1075 ≤ 1 / 100 / 2 ^ 53 := by decide +kernel
  have h3 : (1:ℚ) / 100 / 2 ^ 53 ≤ q / 2 ^ 53 := by gcongr
  have h4 := abs_le.1 h1
  have h5 : q / 2 ^ 53 + q / 2 ^ 53 = q * (1 / 2 ^ 52) := by ring
  constructor <;> nlinarith

theorem Dbl.ofQ_fin {q : ℚ} (h0 : 0 ≤ q) (h : q ≤ 2 ^ 100) : Dbl.ofQ q = .fin (bin64 q) := by
  have h1 : bin64 q ≤ 2 ^ 100 := by
    have := bin64_mono h
    have e : bin64 ((2:ℚ) ^ 100) = 2 ^ 100 := by
      have := bin64_pow (e := 100) (by norm_num)
      exact_mod_cast this
    rwa [e] at this
  have h2 := bin64_nonneg h0
  have h3 : (2:ℚ) ^ 100 ≤ Dbl.maxQ := by decide +kernel
  have h4 : (0:ℚ) ≤ Dbl.maxQ := by decide +kernel
  simp only [Dbl.ofQ]
  rw [if_neg (_root_.not_lt.2 (by linarith)), if_neg (_root_.not_lt.2 (by linarith))]

/-- The loop `s = 0; for ( k = 0; k < m; ++k ) s += w[ k ]`. -/
def fsum (w : ℕ → ℚ) : ℕ → ℚ
  | 0 => 0
  | k + 1 => bin64 (fsum w k + w k)

variable {w v : ℕ → ℚ}

theorem fsum_nonneg (h : ∀ k, 0 ≤ w k) : ∀ k, 0 ≤ fsum w k
  | 0 => le_refl 0
  | k + 1 => bin64_nonneg (add_nonneg (fsum_nonneg h k) (h k))

theorem fsum_double : ∀ k, bin64 (fsum w k) = fsum w k
  | 0 => bin64_zero
  | _ + 1 => bin64_idem _

theorem fsum_succ_ge (h : ∀ k, 0 ≤ w k) (k : ℕ) : fsum w k ≤ fsum w (k + 1) := by
  have := bin64_mono (show fsum w k ≤ fsum w k + w k by linarith [h k])
  rwa [fsum_double] at this

theorem fsum_mono (h : ∀ k, 0 ≤ w k) {j k : ℕ} (hjk : j ≤ k) : fsum w j ≤ fsum w k := by
  induction hjk with
  | refl => exact le_refl _
  | step _ ih => exact ih.trans (fsum_succ_ge h _)

/-- A sum of `k` numbers up to `M` is at most `k * M`, even with rounding. -/
theorem fsum_le {M N : ℕ} (hN : M * N < 2 ^ 53) (h : ∀ k, w k ≤ M) : ∀ k ≤ N, fsum w k ≤ M * k
  | 0, _ => by simp [fsum]
  | k + 1, hk => by
    have ih := fsum_le hN h k (by omega)
    have h1 : fsum w k + w k ≤ ((M * (k + 1) : ℕ) : ℚ) := by push_cast; linarith [h k]
    have h2 := bin64_mono h1
    rw [bin64_nat _ (lt_of_le_of_lt (Nat.mul_le_mul_left _ hk) hN)] at h2
    push_cast at h2 ⊢
    exact h2

/-- The loop in floating point. -/
theorem foldl_fsum {M N : ℕ} (hN : M * N < 2 ^ 53) (h0 : ∀ k, 0 ≤ w k) (h : ∀ k, w k ≤ M) (f : ℕ → Dbl) (hf : ∀ k < N, f k = .fin (w k)) :
    ∀ k ≤ N, (List.range k).foldl (fun s i => Dbl.add s (f i)) (.fin 0) = .fin (fsum w k)
  | 0, _ => rfl
  | k + 1, hk => by
    rw [List.range_succ, List.foldl_append, foldl_fsum hN h0 h f hf k (by omega)]
    simp only [List.foldl_cons, List.foldl_nil, hf k (by omega), Dbl.add, fsum]
    refine Dbl.ofQ_fin (add_nonneg (fsum_nonneg h0 k) (h0 k)) ?_
    have h1 := fsum_le hN h k (by omega)
    have h2 := h k
    have h3 : ((M * (k + 1) : ℕ) : ℚ) < 2 ^ 53 := by exact_mod_cast lt_of_le_of_lt (Nat.mul_le_mul_left _ hk) hN
    push_cast at h3
    have h4 : (2:ℚ) ^ 53 ≤ 2 ^ 100 := by norm_num
    linarith

/-- The rounded sum of the rounded squares is little more than the largest number times the rounded sum. -/
theorem fsum_sq_le (h0 : ∀ k, 0 ≤ w k) (h1 : ∀ k, w k ≤ w 0) (hw : 3 / 5 ≤ w 0) (hd : bin64 (w 0) = w 0) :
    ∀ k, fsum (fun i => bin64 (w i * w i)) (k + 1) ≤ w 0 * fsum w (k + 1) * (1 + 1 / 2 ^ 49) ^ (k + 1)
  | 0 => by
    simp only [fsum, zero_add, pow_one]
    rw [hd, bin64_idem]
    have h2 := (bin64_rel (q := w 0 * w 0) (by nlinarith)).2
    have h3 : (0:ℚ) ≤ w 0 * w 0 := by positivity
    have h4 : (1:ℚ) + 1 / 2 ^ 52 ≤ 1 + 1 / 2 ^ 49 := by norm_num
    nlinarith
  | k + 1 => by
    have ih := fsum_sq_le h0 h1 hw hd k
    rw [pow_succ]
    show bin64 (fsum (fun i => bin64 (w i * w i)) (k + 1) + bin64 (w (k + 1) * w (k + 1))) ≤ w 0 * bin64 (fsum w (k + 1) + w (k + 1)) * _
    set E := (1 + (1:ℚ) / 2 ^ 49) ^ (k + 1) with hE
    have hE1 : 1 ≤ E := one_le_pow₀ (by norm_num)
    set S := fsum w (k + 1) with hS
    set T := fsum (fun i => bin64 (w i * w i)) (k + 1) with hT
    set x := w (k + 1) with hx
    have x0 : 0 ≤ x := h0 _
    have x1 : x ≤ w 0 := h1 _
    have hS0 : w 0 ≤ S := by
      have := fsum_mono h0 (show 1 ≤ k + 1 by omega)
      have e : fsum w 1 = w 0 := by simp only [fsum, zero_add]; exact hd
      rwa [e] at this
    -- the square
    have hsq := bin64_err (x * x)
    rw [abs_of_nonneg (mul_self_nonneg x)] at hsq
    have hsq' := (abs_le.1 hsq).1
    have hη : (1:ℚ) / 2 ^ 1075 ≤ 1 / 100 / 2 ^ 53 := by decide +kernel
    have hxx : x * x ≤ w 0 * x := by nlinarith
    have hA : (36:ℚ) / 100 ≤ w 0 * (S + x) := by nlinarith
    set A := w 0 * (S + x) with hAd
    have hAE : A ≤ A * E := by nlinarith
    -- the argument of the rounding
    have hT1 : T + bin64 (x * x) ≤ A * E * (1 + 1 / 2 ^ 52) := by
      have a1 : bin64 (x * x) ≤ w 0 * x * (1 + 1 / 2 ^ 53) + 1 / 100 / 2 ^ 53 := by
        have : x * x / 2 ^ 53 ≤ w 0 * x / 2 ^ 53 := by gcongr
        have e : w 0 * x * (1 + 1 / 2 ^ 53) = w 0 * x + w 0 * x / 2 ^ 53 := by ring
        rw [e]; linarith
      have a2 : w 0 * x ≤ w 0 * x * E := by nlinarith [mul_nonneg (show 0 ≤ w 0 by linarith) x0]
      have e : A * E * (1 + 1 / 2 ^ 52) = w 0 * S * E + w 0 * x * E + A * E / 2 ^ 52 := by rw [hAd]; ring
      have a3 : w 0 * x / 2 ^ 53 ≤ A * E / 2 ^ 53 := by
        have : w 0 * x ≤ A := by rw [hAd]; nlinarith
        have : w 0 * x ≤ A * E := this.trans hAE
        gcongr
      have a4 : (1:ℚ) / 100 / 2 ^ 53 ≤ A * E / 2 ^ 53 := by
        have : (1:ℚ) / 100 ≤ A * E := by linarith
        gcongr
      have a5 : A * E / 2 ^ 52 = A * E / 2 ^ 53 + A * E / 2 ^ 53 := by ring
      have a6 : w 0 * x * (1 + 1 / 2 ^ 53) = w 0 * x + w 0 * x / 2 ^ 53 := by ring
      rw [e, a5]; linarith
    have hT2 := bin64_mono hT1
    have hT3 := (bin64_rel (q := A * E * (1 + 1 / 2 ^ 52)) (by nlinarith)).2
    have hS2 := (bin64_rel (q := S + x) (by linarith)).1
    have hS3 : A * (1 - 1 / 2 ^ 52) ≤ w 0 * bin64 (S + x) := by
      have := mul_le_mul_of_nonneg_left hS2 (show 0 ≤ w 0 by linarith)
      rw [hAd]; linarith
    have hS4 := mul_le_mul_of_nonneg_right hS3 (show 0 ≤ E * (1 + 1 / 2 ^ 49) by positivity)
    have hAE0 : 0 ≤ A * E := by linarith
    have hfin : A * E * (1 + 1 / 2 ^ 52) * (1 + 1 / 2 ^ 52) ≤ A * (1 - 1 / 2 ^ 52) * (E * (1 + 1 / 2 ^ 49)) := by
      have c : (1 + (1:ℚ) / 2 ^ 52) * (1 + 1 / 2 ^ 52) ≤ (1 - 1 / 2 ^ 52) * (1 + 1 / 2 ^ 49) := by norm_num
      have := mul_le_mul_of_nonneg_left c hAE0
      linarith
    linarith

theorem one_add_pow_le {m : ℕ} (h : m ≤ 2 ^ 40) : (1 + (1:ℚ) / 2 ^ 49) ^ m ≤ 11 / 10 := by
  have h1 := one_add_mul_le_pow (show (-2:ℚ) ≤ -(1 / 2 ^ 49) by norm_num) m
  have hm : (m : ℚ) ≤ 2 ^ 40 := by exact_mod_cast h
  have h2 : (10:ℚ) / 11 ≤ (1 + -(1 / 2 ^ 49)) ^ m := by
    refine le_trans ?_ h1
    have : (m : ℚ) * (1 / 2 ^ 49) ≤ 2 ^ 40 * (1 / 2 ^ 49) := by gcongr
    have e : (2:ℚ) ^ 40 * (1 / 2 ^ 49) ≤ 1 / 11 := by norm_num
    linarith
  have h3 : (1 + (1:ℚ) / 2 ^ 49) ^ m * (1 + -(1 / 2 ^ 49)) ^ m ≤ 1 := by
    rw [← mul_pow]
    exact pow_le_one₀ (by norm_num) (by norm_num)
  have h4 : 0 ≤ (1 + (1:ℚ) / 2 ^ 49) ^ m := by positivity
  nlinarith

/-- The square of the sum is larger than the sum of the squares, in floating point. -/
theorem sq_sum_ge {mu : ℕ} (hmu : 1 ≤ mu) (hmax : mu ≤ 2 ^ 40) (h0 : ∀ k, 0 ≤ w k) (h1 : ∀ k, w k ≤ w 0) (hw : 3 / 5 ≤ w 0) (hd : bin64 (w 0) = w 0)
    (h2 : 2 ≤ mu → 3 / 10 * w 0 ≤ w 1) :
    0 < fsum (fun i => bin64 (w i * w i)) mu ∧ fsum (fun i => bin64 (w i * w i)) mu ≤ bin64 (fsum w mu * fsum w mu) := by
  have hs0 : ∀ k, 0 ≤ bin64 (w k * w k) := fun k => bin64_nonneg (mul_self_nonneg _)
  have hww := (bin64_rel (q := w 0 * w 0) (by nlinarith)).1
  have e1 : fsum (fun i => bin64 (w i * w i)) 1 = bin64 (w 0 * w 0) := by simp only [fsum, zero_add]; exact bin64_idem _
  have hpos : 0 < bin64 (w 0 * w 0) := by
    refine lt_of_lt_of_le ?_ hww
    have : (0:ℚ) < 1 - 1 / 2 ^ 52 := by norm_num
    have : 0 < w 0 := by linarith
    positivity
  refine ⟨lt_of_lt_of_le hpos (by rw [← e1]; exact fsum_mono hs0 hmu), ?_⟩
  rcases (by omega : mu = 1 ∨ 2 ≤ mu) with rfl | hmu2
  · rw [e1]
    simp only [fsum, zero_add]
    rw [hd]
  · obtain ⟨k, rfl⟩ : ∃ k, mu = k + 1 := ⟨mu - 1, by omega⟩
    have hT := fsum_sq_le h0 h1 hw hd k
    have hE := one_add_pow_le (m := k + 1) (by omega)
    set S := fsum w (k + 1) with hS
    have hS2 : fsum w 2 ≤ S := fsum_mono h0 hmu2
    have e2 : fsum w 2 = bin64 (w 0 + w 1) := by
      show bin64 (bin64 (0 + w 0) + w 1) = _
      rw [zero_add, hd]
    rw [e2] at hS2
    have hb := (bin64_rel (q := w 0 + w 1) (by linarith [h0 1])).1
    have h13 := h2 hmu2
    have hS3 : 5 / 4 * w 0 ≤ S := by
      have : (5:ℚ) / 4 * w 0 ≤ (w 0 + w 1) * (1 - 1 / 2 ^ 52) := by
        have c : (26:ℚ) / 27 ≤ 1 - 1 / 2 ^ 52 := by norm_num
        nlinarith
      linarith
    have hSS := (bin64_rel (q := S * S) (by nlinarith)).1
    have hwS : 0 ≤ w 0 * S := mul_nonneg (by linarith) (by linarith)
    have a1 : w 0 * S * (1 + 1 / 2 ^ 49) ^ (k + 1) ≤ w 0 * S * (11 / 10) := mul_le_mul_of_nonneg_left hE hwS
    have a2 : 5 / 4 * (w 0 * S) ≤ S * S := by nlinarith
    have a3 : (11:ℚ) / 10 * (w 0 * S) ≤ 22 / 25 * (S * S) := by linarith
    have c : (22:ℚ) / 25 ≤ 1 - 1 / 2 ^ 52 := by norm_num
    have a4 : 22 / 25 * (S * S) ≤ S * S * (1 - 1 / 2 ^ 52) := by nlinarith [mul_self_nonneg S]
    linarith

end Spot
