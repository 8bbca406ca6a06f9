import Verif.Props.ParInfo
import Verif.Lemmas.FloatSum

/-!
# C02: the default options
-/

namespace Spot

open Notation

/-- **C02.** With the default options a text `~v` (`0 < |v| ≤ 10^12`) is a parameter with mean `v`, bounds `-10^12` and `10^12`, and as standard deviation a tenth of `|v|` but not less than `0.01`, up to
the rounding of doubles. -/
theorem C02_default (R : Reader) (name : Str) (s : Str) {q : ℚ} (hs : Lexes R s [.std (.fin q)] []) (h0 : q ≠ 0) (hq : |q| ≤ 10 ^ 12) :
    ∃ d : ℚ, ParInfo.parse R name { str := s } .default = .ok ⟨name, .fin q, .fin d, .fin (-10 ^ 12), .fin (10 ^ 12)⟩ ∧
      |d - max (|q| / 10) (1 / 100)| ≤ max (|q| / 10) (1 / 100) / 2 ^ 51 := by
  obtain ⟨a1, a2⟩ := bin64_rel (q := 1 / 10) (by norm_num)
  obtain ⟨m1, m2⟩ := bin64_rel (q := 1 / 100) (by norm_num)
  have hn := abs_nonneg q
  generalize ha : bin64 (1 / 10) = a at a1 a2
  generalize hm : bin64 (1 / 100) = m at m1 m2
  have ha0 : 0 ≤ a := le_trans (by norm_num) a1
  have ha2 : a ≤ 1 := le_trans a2 (by norm_num)
  have hp0 : 0 ≤ a * |q| := mul_nonneg ha0 hn
  have hp1 : a * |q| ≤ 10 ^ 12 := le_trans (mul_le_of_le_one_left hn ha2) hq
  have hstd : Dbl.max (Dbl.add (Dbl.mul (ParOptions.default).autoStdFactor (Dbl.fin q).abs) (ParOptions.default).autoStdOffset) (ParOptions.default).autoStdMinimum =
      .fin (max (bin64 (a * |q|)) m) := by
    show Dbl.max (Dbl.add (Dbl.mul (.fin (bin64 (1 / 10))) (.fin |q|)) (.fin 0)) (.fin (bin64 (1 / 100))) = _
    rw [ha, hm]
    have e1 : Dbl.mul (.fin a) (.fin |q|) = .fin (bin64 (a * |q|)) := Dbl.ofQ_fin hp0 (hp1.trans (by norm_num))
    have hr0 := bin64_nonneg hp0
    have hr1 : bin64 (a * |q|) ≤ 2 ^ 100 := by
      have := bin64_mono (hp1.trans (show (10:ℚ) ^ 12 ≤ ((10 ^ 12 : ℕ) : ℚ) by norm_num))
      rw [bin64_nat _ (by norm_num)] at this
      exact this.trans (by norm_num)
    have e2 : Dbl.add (.fin (bin64 (a * |q|))) (.fin 0) = .fin (bin64 (a * |q|)) := by
      show Dbl.ofQ (bin64 (a * |q|) + 0) = _
      rw [add_zero, Dbl.ofQ_fin hr0 hr1, bin64_idem]
    rw [e1, e2]
    unfold Dbl.max
    by_cases hlt : bin64 (a * |q|) < m
    · have : Dbl.lt (.fin (bin64 (a * |q|))) (.fin m) = true := by simpa [Dbl.lt] using hlt
      rw [if_pos this, max_eq_right hlt.le]
    · have : ¬ Dbl.lt (.fin (bin64 (a * |q|))) (.fin m) = true := by simpa [Dbl.lt] using hlt
      rw [if_neg this, max_eq_left (not_lt.1 hlt)]
  refine ⟨max (bin64 (a * |q|)) m, ?_, ?_⟩
  · have hab := abs_le.1 hq
    rw [C02_tilde_only R name .default s (.fin q) hs (by simp [Dbl.eq, h0]) (by simpa [ParOptions.default, Dbl.le] using hab.1) (by simpa [ParOptions.default, Dbl.le] using hab.2)
      (by decide +kernel) (by
        rw [hstd]
        have : (0:ℚ) ≤ max (bin64 (a * |q|)) m := le_max_of_le_left (bin64_nonneg hp0)
        simpa [Dbl.le] using this), hstd]
    rfl
  · refine (abs_max_sub_max_le_max _ _ _ _).trans ?_
    have hx : |q| / 10 ≤ max (|q| / 10) (1 / 100) := le_max_left _ _
    have hy : (1 : ℚ) / 100 ≤ max (|q| / 10) (1 / 100) := le_max_right _ _
    generalize max (|q| / 10) (1 / 100) = z at hx hy
    apply max_le
    · have herr := bin64_err (a * |q|)
      rw [abs_of_nonneg hp0] at herr
      have ht : (1:ℚ) / 2 ^ 1075 ≤ 1 / 100 / 2 ^ 60 := by decide +kernel
      have b1 : a * |q| ≤ 1 / 10 * (1 + 1 / 2 ^ 52) * |q| := mul_le_mul_of_nonneg_right a2 hn
      have b2 : 1 / 10 * (1 - 1 / 2 ^ 52) * |q| ≤ a * |q| := mul_le_mul_of_nonneg_right a1 hn
      have h3 := abs_le.1 herr
      generalize (1:ℚ) / 2 ^ 1075 = tiny at ht herr h3
      rw [abs_le]
      constructor <;> linarith [h3.1, h3.2]
    · rw [abs_le]
      constructor <;> linarith

/-- `~4` is such a text. -/
example : ∃ d : ℚ, ParInfo.parse strtodReader "x".toList { str := "~4".toList } .default = .ok ⟨"x".toList, .fin 4, .fin d, .fin (-10 ^ 12), .fin (10 ^ 12)⟩ ∧ |d - 4 / 10| ≤ 4 / 10 / 2 ^ 51 :=
  ⟨bin64 (2 / 5), by decide +kernel, by decide +kernel⟩

end Spot
