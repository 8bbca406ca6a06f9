import Verif.Lemmas.Round

namespace Spot

theorem one_lt_ten : 1 < 10 := by norm_num
theorem one_lt_two' : 1 < 2 := by norm_num

theorem dec8_mono : Monotone dec8 := rnd_mono one_lt_ten validExp_dec8
theorem bin64_mono : Monotone bin64 := rnd_mono one_lt_two' validExp_64
theorem dec8_neg (q : ℚ) : dec8 (-q) = - dec8 q := rnd_neg q
theorem bin64_neg (q : ℚ) : bin64 (-q) = - bin64 q := rnd_neg q
@[simp] theorem dec8_zero : dec8 0 = 0 := rnd_zero
@[simp] theorem bin64_zero : bin64 0 = 0 := rnd_zero
theorem dec8_idem (q : ℚ) : dec8 (dec8 q) = dec8 q := rnd_idem one_lt_ten validExp_dec8 q
theorem bin64_idem (q : ℚ) : bin64 (bin64 q) = bin64 q := rnd_idem one_lt_two' validExp_64 q

theorem dec8_of_log {q : ℚ} {l : ℤ} (h1 : (10:ℚ) ^ l ≤ q) (h2 : q < (10:ℚ) ^ (l + 1)) :
    dec8 q = rhe (q / (10:ℚ) ^ (l - 7)) * (10:ℚ) ^ (l - 7) := by
  have hq : 0 < q := lt_of_lt_of_le (zpow_pos (by norm_num) _) h1
  have : Int.log 10 q = l := log_eq_of one_lt_ten (by exact_mod_cast h1) (by exact_mod_cast h2)
  unfold dec8 rnd fexpDec8
  simp only [abs_of_pos hq, this]
  norm_num

/-- A number close to an 8-digit decimal is printed as that decimal. -/
theorem dec8_near {d w : ℚ} (hd : 0 < d) (hg : dec8 d = d) {l : ℤ} (hl : Int.log 10 d = l)
    (h : |w - d| < (10:ℚ) ^ (l - 8) / 2) : dec8 w = d := by
  have e1 : (10:ℚ) ^ l ≤ d := by
    have := Int.zpow_log_le_self (b := 10) one_lt_ten hd; rw [hl] at this; exact_mod_cast this
  have e2 : d < (10:ℚ) ^ (l+1) := by
    have := Int.lt_zpow_succ_log_self (b := 10) one_lt_ten d; rw [hl] at this; exact_mod_cast this
  set u : ℚ := (10:ℚ) ^ (l - 8) with hu
  have hup : 0 < u := zpow_pos (by norm_num) _
  have hl7 : (10:ℚ) ^ (l - 7) = 10 * u := by
    rw [hu, show l - 7 = 1 + (l - 8) by ring, zpow_add₀ (by norm_num)]; norm_num
  have hl0 : (10:ℚ) ^ l = 10 ^ 8 * u := by
    rw [hu, show l = 8 + (l - 8) by ring, zpow_add₀ (by norm_num)]; norm_num
  have hl1 : (10:ℚ) ^ (l+1) = 10 ^ 9 * u := by
    rw [hu, show l + 1 = 9 + (l - 8) by ring, zpow_add₀ (by norm_num)]; norm_num
  -- d = n * 10 u
  have hdn := dec8_of_log e1 e2
  rw [hg] at hdn
  set n := rhe (d / (10:ℚ) ^ (l - 7)) with hn
  rw [hl7] at hdn
  have n1 : (10^7 : ℚ) ≤ n := by
    rw [hl0] at e1; by_contra hc; push Not at hc; nlinarith
  have n2 : (n : ℚ) < 10 ^ 8 := by
    rw [hl1] at e2; by_contra hc; push Not at hc; nlinarith
  have n2' : n ≤ 10^8 - 1 := by
    have : n < 10^8 := by exact_mod_cast n2
    omega
  have n2q : (n : ℚ) ≤ 10^8 - 1 := by exact_mod_cast n2'
  rw [abs_lt] at h
  have wlt : w < (10:ℚ) ^ (l+1) := by rw [hl1]; nlinarith
  by_cases hw : (10:ℚ) ^ l ≤ w
  · rw [dec8_of_log hw wlt]
    have := rndAt_eq_of_near (b := 10) one_lt_ten (k := l - 7) (q := w) (n := n)
    push_cast at this
    rw [this, hl7, ← hdn]
    rw [hl7, ← hdn, abs_lt]; constructor <;> linarith
  · push Not at hw
    -- then d = 10^l
    have hd0 : n = 10^7 := by
      have a : (n : ℚ) < 10^7 + 1 := by
        rw [hl0] at hw; by_contra hc; push Not at hc; nlinarith
      have a' : n < 10^7 + 1 := by exact_mod_cast a
      have b' : 10^7 ≤ n := by exact_mod_cast n1
      omega
    have hd8 : d = ((10^8 : ℤ) : ℚ) * u := by rw [hdn, hd0]; push_cast; ring
    have hwl : (10:ℚ) ^ (l - 1) ≤ w := by
      have : (10:ℚ) ^ (l - 1) = 10 ^ 7 * u := by
        rw [hu, show l - 1 = 7 + (l - 8) by ring, zpow_add₀ (by norm_num)]; norm_num
      rw [this]; rw [hd8] at h; push_cast at h; nlinarith
    rw [dec8_of_log hwl (by rwa [show l - 1 + 1 = l by ring]), show l - 1 - 7 = l - 8 by ring, ← hu]
    have := rndAt_eq_of_near (b := 10) one_lt_ten (k := l - 8) (q := w) (n := 10^8)
    push_cast at this
    rw [← hu] at this
    push_cast at hd8
    rw [this, ← hd8]
    rw [← hd8, abs_lt]; constructor <;> linarith

theorem bin64_pow_le_sub {x : ℚ} (hx0 : 0 ≤ x) (hx : x ≤ (2:ℚ) ^ (-1022:ℤ)) :
    bin64 x = rhe (x / (2:ℚ) ^ (-1074:ℤ)) * (2:ℚ) ^ (-1074:ℤ) := by
  rcases hx0.eq_or_lt with rfl | hpos
  · simp
  · have : Int.log 2 x ≤ -1022 := by
      have h := Int.zpow_log_le_self (b := 2) one_lt_two' hpos
      have h2 : ((2:ℕ):ℚ) ^ Int.log 2 x ≤ ((2:ℕ):ℚ) ^ (-1022:ℤ) := h.trans (by exact_mod_cast hx)
      exact (zpow_le_zpow_iff_right₀ (by norm_num)).1 h2
    unfold bin64 rnd fexp64
    simp only [abs_of_pos hpos]
    rw [max_eq_right (by omega)]
    norm_num

/-- Printing with 8 digits and reading back as a double. -/
def p8 (q : ℚ) : ℚ := bin64 (dec8 q)

theorem p8_mono : Monotone p8 := bin64_mono.comp dec8_mono
theorem p8_neg (q : ℚ) : p8 (-q) = - p8 q := by simp [p8, dec8_neg, bin64_neg]
@[simp] theorem p8_zero : p8 0 = 0 := by simp [p8]

theorem p8_idem_pos {v : ℚ} (hv : 0 < v) : p8 (p8 v) = p8 v := by
  set d := dec8 v with hd
  set w := bin64 d with hw
  have hpv : p8 v = w := rfl
  rw [hpv]
  show bin64 (dec8 w) = w
  have hd0 : 0 ≤ d := by
    have := dec8_mono hv.le; simpa using this
  rcases hd0.eq_or_lt with h0 | hdp
  · rw [hw, ← h0]; simp
  have hw0 : 0 ≤ w := by
    have := bin64_mono hdp.le; simpa using this
  rcases hw0.eq_or_lt with h0 | hwp
  · rw [← h0]; simp
  have hdd : dec8 d = d := dec8_idem v
  have hww : bin64 w = w := bin64_idem d
  set l := Int.log 10 d with hl
  set u : ℚ := (10:ℚ) ^ (l - 8) with hu
  have hup : 0 < u := zpow_pos (by norm_num) _
  have d1 : (10:ℚ) ^ l ≤ d := by
    have := Int.zpow_log_le_self (b := 10) one_lt_ten hdp; exact_mod_cast this
  have d2 : d < (10:ℚ) ^ (l+1) := by
    have := Int.lt_zpow_succ_log_self (b := 10) one_lt_ten d; exact_mod_cast this
  have hl1 : (10:ℚ) ^ (l+1) = 10 ^ 9 * u := by
    rw [hu, show l + 1 = 9 + (l - 8) by ring, zpow_add₀ (by norm_num)]; norm_num
  -- if the decimal comes back, or lies between d and w, we are done
  have fin1 : dec8 w = d → bin64 (dec8 w) = w := fun h => by rw [h]
  have err : |d - w| ≤ (2:ℚ) ^ fexp64 (Int.log 2 d) / 2 := by
    have := rnd_err (b := 2) one_lt_two' (fexp := fexp64) d
    rw [abs_of_pos hdp] at this
    exact_mod_cast this
  by_cases hi : (2:ℚ) ^ fexp64 (Int.log 2 d) < u
  · apply fin1
    apply dec8_near hdp hdd hl.symm
    rw [abs_sub_comm]
    exact lt_of_le_of_lt err (by linarith)
  · push Not at hi
    -- subnormal
    have hfe : fexp64 (Int.log 2 d) = -1074 := by
      by_contra hne
      have hne' : fexp64 (Int.log 2 d) = Int.log 2 d - 52 := by unfold fexp64 at hne ⊢; omega
      rw [hne'] at hi
      have h2 : (2:ℚ) ^ Int.log 2 d ≤ d := by
        have := Int.zpow_log_le_self (b := 2) one_lt_two' hdp; exact_mod_cast this
      rw [zpow_sub₀ (by norm_num)] at hi
      have : (2:ℚ) ^ Int.log 2 d / 2 ^ (52:ℤ) < u := by
        rw [div_lt_iff₀ (by positivity)]
        have h3 : (2:ℚ) ^ Int.log 2 d < 10 ^ 9 * u := lt_of_le_of_lt h2 (hl1 ▸ d2)
        have h4 : (10:ℚ)^9 ≤ 2 ^ (52:ℤ) := by norm_num
        nlinarith
      linarith
    rw [hfe] at err hi
    set s : ℚ := (2:ℚ) ^ (-1074:ℤ) with hs
    have hsp : 0 < s := zpow_pos (by norm_num) _
    have hbig : (2:ℚ) ^ (-1022:ℤ) = 2 ^ 52 * s := by
      rw [hs, show (-1022:ℤ) = 52 + (-1074) by norm_num, zpow_add₀ (by norm_num)]; norm_num
    rw [abs_le] at err
    have dlt : d < 10 ^ 9 * s := lt_of_lt_of_le (hl1 ▸ d2) (by nlinarith)
    have wlt : w < (10 ^ 9 + 1) * s := by linarith
    -- spacing of decimals at w
    set j := Int.log 10 w with hj
    have w1 : (10:ℚ) ^ j ≤ w := by
      have := Int.zpow_log_le_self (b := 10) one_lt_ten hwp; exact_mod_cast this
    have w2 : w < (10:ℚ) ^ (j+1) := by
      have := Int.lt_zpow_succ_log_self (b := 10) one_lt_ten w; exact_mod_cast this
    set t : ℚ := (10:ℚ) ^ (j - 7) with ht
    have htp : 0 < t := zpow_pos (by norm_num) _
    have hdw := dec8_of_log w1 w2
    have hdwerr : |w - dec8 w| ≤ t / 2 := by
      rw [hdw]
      have := rndAt_err (b := 10) one_lt_ten (j - 7) w
      exact_mod_cast this
    have hdw0 : 0 ≤ dec8 w := by have := dec8_mono hwp.le; simpa using this
    -- w as multiple of s
    have hwn : w = rhe (w / s) * s := by
      rw [← bin64_pow_le_sub hw0 (by rw [hbig]; nlinarith)]; exact hww.symm
    rcases lt_trichotomy t s with hts | hts | hts
    · -- decimals finer than the double grid
      rw [abs_le] at hdwerr
      rw [bin64_pow_le_sub hdw0 (by rw [hbig]; nlinarith), ← hs]
      have := rndAt_eq_of_near (b := 2) one_lt_two' (k := -1074) (q := dec8 w) (n := rhe (w / s))
      push_cast at this
      rw [← hs, ← hwn] at this
      apply this
      rw [abs_lt]; constructor <;> linarith
    · -- same grid
      have : dec8 w = w := by
        rw [hdw, ← ht, hts]; exact hwn.symm
      rw [this]; exact hww
    · -- decimals coarser
      rcases lt_trichotomy j l with hjl | hjl | hjl
      · exfalso
        have : t ≤ u := by
          rw [ht, hu]; exact zpow_le_zpow_right₀ (by norm_num) (by omega)
        linarith
      · -- same decade
        apply fin1
        rw [hdw]
        have hdn := dec8_of_log d1 d2
        rw [hdd] at hdn
        rw [← hjl] at hdn
        have := rndAt_eq_of_near (b := 10) one_lt_ten (k := j - 7) (q := w) (n := rhe (d / 10 ^ (j - 7)))
        push_cast at this
        rw [this, ← hdn]
        rw [← hdn, ← ht, abs_lt]; constructor <;> linarith
      · -- w above the decade of d
        have hc1 : d < (10:ℚ) ^ j := lt_of_lt_of_le d2 (zpow_le_zpow_right₀ (by norm_num) (by omega))
        have hc : (10:ℚ) ^ j = ((10^7 : ℤ) : ℚ) * t := by
          rw [ht]; push_cast
          rw [show j = 7 + (j - 7) by ring, zpow_add₀ (by norm_num)]; norm_num
        have hdc : dec8 w = (10:ℚ) ^ j := by
          rw [hdw]
          have := rndAt_eq_of_near (b := 10) one_lt_ten (k := j - 7) (q := w) (n := 10^7)
          push_cast at this
          rw [← ht] at this ⊢
          push_cast at hc
          rw [this, ← hc]
          rw [← hc, abs_lt]; constructor <;> linarith
        rw [hdc]
        apply le_antisymm
        · calc bin64 ((10:ℚ)^j) ≤ bin64 w := bin64_mono w1
            _ = w := hww
        · exact bin64_mono hc1.le

theorem p8_idem (v : ℚ) : p8 (p8 v) = p8 v := by
  rcases lt_trichotomy v 0 with h | rfl | h
  · have := p8_idem_pos (v := -v) (by linarith)
    rw [p8_neg, p8_neg] at this
    linarith
  · simp
  · exact p8_idem_pos h

theorem bin64_p8 (v : ℚ) : bin64 (p8 v) = p8 v := bin64_idem _

/-- Accuracy: relative error below `5.1e-8` plus half the smallest subnormal. -/
theorem p8_err (v : ℚ) : |p8 v - v| ≤ |v| * (51 / 10 ^ 9) + 2 ^ (-1075:ℤ) := by
  have pos : ∀ {v : ℚ}, 0 < v → |p8 v - v| ≤ v * (51 / 10 ^ 9) + 2 ^ (-1075:ℤ) := by
    intro v hv
    have e1 : |v - dec8 v| ≤ v * (5 / 10^8) := by
      have h := rnd_err (b := 10) one_lt_ten (fexp := fexpDec8) v
      rw [abs_of_pos hv] at h
      have h1 : (10:ℚ) ^ Int.log 10 v ≤ v := by
        have := Int.zpow_log_le_self (b := 10) one_lt_ten hv; exact_mod_cast this
      have h2 : (10:ℚ) ^ fexpDec8 (Int.log 10 v) = (10:ℚ) ^ Int.log 10 v / 10 ^ 7 := by
        unfold fexpDec8; rw [zpow_sub₀ (by norm_num)]; norm_num
      change |v - dec8 v| ≤ _ at h
      push_cast at h
      rw [h2] at h
      linarith
    have hd0 : 0 ≤ dec8 v := by have := dec8_mono hv.le; simpa using this
    have e2 : |dec8 v - p8 v| ≤ dec8 v * (1 / 2 ^ 53) + 2 ^ (-1075:ℤ) := by
      have hp2 : (0:ℚ) < 2 ^ (-1075:ℤ) := zpow_pos (by norm_num) _
      rcases hd0.eq_or_lt with h0 | hdp
      · rw [p8, ← h0]; simp
      · have h := rnd_err (b := 2) one_lt_two' (fexp := fexp64) (dec8 v)
        rw [abs_of_pos hdp] at h
        change |dec8 v - p8 v| ≤ _ at h
        push_cast at h
        have h1 : (2:ℚ) ^ Int.log 2 (dec8 v) ≤ dec8 v := by
          have := Int.zpow_log_le_self (b := 2) one_lt_two' hdp; exact_mod_cast this
        rcases le_total (Int.log 2 (dec8 v) - 52) (-1074) with hc | hc
        · rw [fexp64, max_eq_right hc] at h
          have : (2:ℚ) ^ (-1074:ℤ) / 2 = 2 ^ (-1075:ℤ) := by
            rw [show (-1074:ℤ) = (-1075) + 1 by norm_num, zpow_add₀ (by norm_num)]; norm_num
          rw [this] at h
          have : 0 ≤ dec8 v * (1 / 2 ^ 53) := by positivity
          linarith
        · rw [fexp64, max_eq_left hc, zpow_sub₀ (by norm_num)] at h
          have e : (2:ℚ) ^ Int.log 2 (dec8 v) / 2 ^ (52:ℤ) / 2 = 2 ^ Int.log 2 (dec8 v) * (1 / 2 ^ 53) := by
            norm_num; ring
          rw [e] at h
          have : (2:ℚ) ^ Int.log 2 (dec8 v) * (1 / 2 ^ 53) ≤ dec8 v * (1 / 2 ^ 53) := by gcongr
          linarith
    rw [abs_le] at e1 e2 ⊢
    have : (1:ℚ) / 2 ^ 53 ≤ 1 / 10 ^ 10 := by norm_num
    have hb : dec8 v * (1 / 2 ^ 53) ≤ dec8 v * (1 / 10^10) := by gcongr
    constructor <;> nlinarith
  rcases lt_trichotomy v 0 with h | rfl | h
  · have := pos (v := -v) (by linarith)
    rw [p8_neg] at this
    rw [abs_of_neg h, show p8 v - v = -(-p8 v - -v) by ring, abs_neg]; exact this
  · simp
  · rw [abs_of_pos h]; exact pos h

end Spot
