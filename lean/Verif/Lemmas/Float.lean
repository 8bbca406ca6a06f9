import Verif.Lemmas.Rounded
import Verif.Lemmas.Evolution

/-! # Error and order of floating-point operations -/

namespace Spot

theorem bin64_err (q : ℚ) : |q - bin64 q| ≤ |q| / 2 ^ 53 + 1 / 2 ^ 1075 := by
  by_cases h0 : q = 0
  · subst h0; simp
  have hq : 0 < |q| := abs_pos.2 h0
  have h := rnd_err (b := 2) one_lt_two' (fexp := fexp64) q
  have hl : (2:ℚ) ^ (Int.log 2 |q|) ≤ |q| := Int.zpow_log_le_self (by norm_num) hq
  have e : bin64 q = rnd 2 fexp64 q := rfl
  rw [← e] at h
  refine h.trans ?_
  rw [fexp64]
  push_cast
  have h53 : (2:ℚ) ^ (Int.log 2 |q| - 52) / 2 = (2:ℚ) ^ (Int.log 2 |q|) / 2 ^ 53 := by
    rw [zpow_sub₀ (by norm_num)]; norm_num; ring
  rcases le_total (Int.log 2 |q| - 52) (-1074) with hc | hc
  · rw [max_eq_right hc]
    have : (0:ℚ) ≤ |q| / 2 ^ 53 := by positivity
    have h2 : (2:ℚ) ^ (-1074:ℤ) / 2 = 1 / 2 ^ 1075 := by decide +kernel
    linarith
  · rw [max_eq_left hc, h53]
    have : (2:ℚ) ^ (Int.log 2 |q|) / 2 ^ 53 ≤ |q| / 2 ^ 53 := by gcongr
    have h2 : (0:ℚ) ≤ 1 / 2 ^ 1075 := by positivity
    linarith

theorem bin64_pow {e : ℤ} (h : -1074 ≤ e) : bin64 ((2:ℚ) ^ e) = (2:ℚ) ^ e := by
  have hl : Int.log 2 |(2:ℚ) ^ e| = e := by
    rw [abs_of_pos (by positivity)]
    exact log_eq_of (b := 2) one_lt_two' (by norm_num) (by push_cast; exact zpow_lt_zpow_right₀ (by norm_num) (by omega))
  obtain ⟨n, hn⟩ := bz_mult (b := 2) one_lt_two' (i := fexp64 e) (j := e) (by unfold fexp64; omega)
  have := rnd_of_grid (b := 2) one_lt_two' (fexp := fexp64) (q := (2:ℚ) ^ e) (n := n)
  rw [hl] at this
  exact this validExp_64 (by exact_mod_cast hn)

/-- Every double is a multiple of the smallest one. -/
theorem double_mult {q : ℚ} (h : bin64 q = q) : ∃ n : ℤ, q = n * (2:ℚ) ^ (-1074:ℤ) := by
  obtain ⟨m, hm⟩ := bz_mult (b := 2) one_lt_two' (i := -1074) (j := fexp64 (Int.log 2 |q|)) (by unfold fexp64; omega)
  refine ⟨rhe (q / (2:ℚ) ^ fexp64 (Int.log 2 |q|)) * m, ?_⟩
  have h' : rhe (q / (2:ℚ) ^ fexp64 (Int.log 2 |q|)) * (2:ℚ) ^ fexp64 (Int.log 2 |q|) = q := by
    unfold bin64 rnd at h; push_cast at h; exact h
  push_cast at hm ⊢
  rw [mul_assoc, ← hm, h']

/-- Rounding a multiple of the smallest double loses less than half of it. -/
theorem half_le_bin64 {q : ℚ} {n : ℤ} (h : q = n * (2:ℚ) ^ (-1074:ℤ)) (h0 : 0 ≤ q) : q ≤ 2 * bin64 q := by
  rcases h0.eq_or_lt with rfl | hq
  · simp
  have hp : (0:ℚ) < (2:ℚ) ^ (-1074:ℤ) := by positivity
  have hn : 1 ≤ n := by
    by_contra hc
    have : (n:ℚ) ≤ 0 := by exact_mod_cast (by omega : n ≤ 0)
    nlinarith
  have hge : (2:ℚ) ^ (-1074:ℤ) ≤ q := by
    have : (1:ℚ) ≤ n := by exact_mod_cast hn
    rw [h]; nlinarith
  have hlog : (-1074:ℤ) ≤ Int.log 2 q := (Int.zpow_le_iff_le_log (by norm_num) hq).1 (by exact_mod_cast hge)
  have h1 : (2:ℚ) ^ (Int.log 2 q) ≤ q := Int.zpow_log_le_self (by norm_num) hq
  have h2 : q < (2:ℚ) ^ (Int.log 2 q + 1) := Int.lt_zpow_succ_log_self (by norm_num) q
  have h3 := bin64_mono h1
  rw [bin64_pow hlog] at h3
  rw [zpow_add₀ (by norm_num)] at h2
  linarith

theorem isDouble_max {q : ℚ} (h : IsDouble q) : |q| ≤ Dbl.maxQ := by
  obtain ⟨h1, h2⟩ := h
  by_cases h0 : q = 0
  · subst h0; decide +kernel
  have hq : 0 < |q| := abs_pos.2 h0
  have hr : rhe (q / (2:ℚ) ^ fexp64 (Int.log 2 |q|)) * (2:ℚ) ^ fexp64 (Int.log 2 |q|) = q := by
    unfold bin64 rnd at h1; push_cast at h1; exact h1
  set n := rhe (q / (2:ℚ) ^ fexp64 (Int.log 2 |q|)) with hn
  have hlog : Int.log 2 |q| < 1024 := (Int.lt_zpow_iff_log_lt (by norm_num) hq).1 (by exact_mod_cast h2)
  have hlt : |q| < (2:ℚ) ^ (Int.log 2 |q| + 1) := Int.lt_zpow_succ_log_self (by norm_num) |q|
  rcases (by omega : Int.log 2 |q| = 1023 ∨ Int.log 2 |q| + 1 ≤ 1023) with hl | hl
  · rw [hl] at hr
    have hk : fexp64 1023 = 971 := by decide
    rw [hk] at hr
    have e : |q| = |(n:ℚ)| * (2:ℚ) ^ (971:ℤ) := by rw [← hr, abs_mul, abs_of_pos (a := (2:ℚ) ^ (971:ℤ)) (by positivity)]
    have hp : (0:ℚ) < (2:ℚ) ^ (971:ℤ) := by positivity
    have hnn : |(n:ℚ)| < 2 ^ 53 := by
      by_contra hc
      have hc := not_lt.1 hc
      have : (2:ℚ) ^ 53 * (2:ℚ) ^ (971:ℤ) ≤ |q| := by rw [e]; gcongr
      have h3 : (2:ℚ) ^ 53 * (2:ℚ) ^ (971:ℤ) = 2 ^ 1024 := by
        decide +kernel
      rw [h3] at this
      exact absurd h2 (not_lt.2 this)
    have hn2 : |n| ≤ 2 ^ 53 - 1 := by
      have : |n| < 2 ^ 53 := by exact_mod_cast hnn
      omega
    have hn3 : |(n:ℚ)| ≤ 2 ^ 53 - 1 := by exact_mod_cast hn2
    rw [e, Dbl.maxQ]
    have : (2:ℚ) ^ (971:ℤ) = 2 ^ 971 := by exact_mod_cast zpow_natCast (2:ℚ) 971
    rw [this]
    gcongr
  · have h3 : (2:ℚ) ^ (Int.log 2 |q| + 1) ≤ (2:ℚ) ^ (1023:ℤ) := zpow_le_zpow_right₀ (by norm_num) hl
    have h4 : (2:ℚ) ^ (1023:ℤ) ≤ Dbl.maxQ := by
      decide +kernel
    linarith

namespace Dbl

theorem ofQ_double {q : ℚ} (h : IsDouble q) : ofQ q = .fin q := by
  have := abs_le.1 (isDouble_max h)
  simp only [ofQ, h.1]
  rw [if_neg (_root_.not_lt.2 this.2), if_neg (_root_.not_lt.2 this.1)]

theorem ofQ_mono {a b : ℚ} (h : a ≤ b) : Dbl.le (ofQ a) (ofQ b) = true := by
  have hb := bin64_mono h
  have hm : (0:ℚ) < maxQ := by unfold maxQ; norm_num
  simp only [ofQ]
  split_ifs <;> simp only [Dbl.le, decide_eq_true_eq] <;> first | trivial | linarith

theorem ofQ_ne_nan (q : ℚ) : ofQ q ≠ .nan := by
  simp only [ofQ]; split_ifs <;> simp

theorem le_ofQ {a b : ℚ} (ha : IsDouble a) (h : a ≤ b) : Dbl.le (.fin a) (ofQ b) = true := by
  have := ofQ_mono h; rwa [ofQ_double ha] at this

theorem ofQ_le {a b : ℚ} (hb : IsDouble b) (h : a ≤ b) : Dbl.le (ofQ a) (.fin b) = true := by
  have := ofQ_mono h; rwa [ofQ_double hb] at this

/-- A finite result of rounding is a double. -/
theorem isDouble_ofQ {q r : ℚ} (h : ofQ q = .fin r) : IsDouble r := by
  simp only [ofQ] at h
  split_ifs at h with h1 h2
  cases h
  refine ⟨bin64_idem q, ?_⟩
  have : maxQ < 2 ^ 1024 := by decide +kernel
  rw [abs_lt]; constructor <;> linarith

end Dbl
end Spot
