import Verif.Num.Round
import Mathlib.Tactic.Ring
import Mathlib.Tactic.Linarith
import Mathlib.Tactic.NormNum
import Mathlib.Tactic.Positivity
import Mathlib.Tactic.FieldSimp
import Mathlib.Tactic.Push

namespace Spot

/-! ## `rhe` -/

theorem rhe_err (x : ℚ) : |x - rhe x| ≤ 1 / 2 := by
  have h1 := Int.floor_le x
  have h2 := Int.lt_floor_add_one x
  unfold rhe
  simp only
  split_ifs <;> rw [abs_le] <;> constructor <;> push_cast <;> linarith

theorem rhe_eq_of_near {x : ℚ} {n : ℤ} (h : |x - n| < 1 / 2) : rhe x = n := by
  have h1 := rhe_err x
  rw [abs_lt] at h
  rw [abs_le] at h1
  have a : (rhe x : ℚ) < n + 1 := by linarith
  have b : (n : ℚ) < rhe x + 1 := by linarith
  have a' : rhe x < n + 1 := by exact_mod_cast a
  have b' : n < rhe x + 1 := by exact_mod_cast b
  omega

@[simp] theorem rhe_int (n : ℤ) : rhe (n : ℚ) = n := by
  apply rhe_eq_of_near; norm_num

theorem rhe_mono {x y : ℚ} (h : x ≤ y) : rhe x ≤ rhe y := by
  rcases h.eq_or_lt with rfl | hlt
  · exact le_rfl
  by_contra hc
  have hc : rhe y + 1 ≤ rhe x := by omega
  have hc' : (rhe y : ℚ) + 1 ≤ rhe x := by exact_mod_cast hc
  have h1 := rhe_err x
  have h2 := rhe_err y
  rw [abs_le] at h1 h2
  linarith

theorem rhe_neg (x : ℚ) : rhe (-x) = - rhe x := by
  by_cases hx : |x - rhe x| < 1 / 2
  · apply rhe_eq_of_near
    push_cast
    rw [show -x - -(rhe x : ℚ) = -(x - rhe x) by ring, abs_neg]; exact hx
  · -- tie
    have h1 := Int.floor_le x
    have h2 := Int.lt_floor_add_one x
    have key : x - ⌊x⌋ = 1 / 2 := by
      by_contra hne
      apply hx
      unfold rhe
      simp only
      split_ifs with c1 c2 c3
      · rw [abs_lt]; constructor <;> linarith
      · push_cast; rw [abs_lt]; constructor <;> linarith
      · exact absurd (le_antisymm (not_lt.1 c2) (not_lt.1 c1)) hne
      · exact absurd (le_antisymm (not_lt.1 c2) (not_lt.1 c1)) hne
    have hxe : x = ⌊x⌋ + 1 / 2 := by linarith
    have hfl : ⌊-x⌋ = -⌊x⌋ - 1 := by
      rw [Int.floor_eq_iff]; push_cast; constructor <;> linarith
    have key2 : -x - ((-⌊x⌋ - 1 : ℤ) : ℚ) = 1 / 2 := by push_cast; linarith
    have e1 : rhe x = if ⌊x⌋ % 2 = 0 then ⌊x⌋ else ⌊x⌋ + 1 := by
      unfold rhe; simp only [key, lt_irrefl, if_false]
    have e2 : rhe (-x) = if (-⌊x⌋ - 1) % 2 = 0 then (-⌊x⌋ - 1) else (-⌊x⌋ - 1) + 1 := by
      unfold rhe; simp only [hfl, key2, lt_irrefl, if_false]
    rw [e1, e2]
    split_ifs <;> omega

@[simp] theorem rhe_zero : rhe 0 = 0 := by simpa using rhe_int 0

/-! ## exponents -/

/-- What the monotonicity and idempotence proofs need of an exponent function (cf. Flocq's `Valid_exp`). -/
structure ValidExp (fexp : ℤ → ℤ) : Prop where
  mono : ∀ {a b}, a ≤ b → fexp a ≤ fexp b
  sep : ∀ {a b}, a < b → fexp a = fexp b ∨ fexp b ≤ b
  sub : ∀ a, fexp (fexp a) ≤ fexp a

theorem validExp_dec8 : ValidExp fexpDec8 :=
  ⟨fun h => by unfold fexpDec8; omega, fun h => by unfold fexpDec8; omega, fun a => by unfold fexpDec8; omega⟩

theorem validExp_64 : ValidExp fexp64 :=
  ⟨fun h => by unfold fexp64; omega, fun h => by unfold fexp64; omega, fun a => by unfold fexp64; omega⟩

section
variable {b : ℕ} (hb : 1 < b) {fexp : ℤ → ℤ} (hf : ValidExp fexp)
include hb

theorem bpos : (0 : ℚ) < b := by exact_mod_cast (by omega : 0 < b)
theorem bzpos (k : ℤ) : (0 : ℚ) < (b : ℚ) ^ k := zpow_pos (bpos hb) k

theorem bz_le {i j : ℤ} (h : i ≤ j) : (b : ℚ) ^ i ≤ (b : ℚ) ^ j :=
  zpow_le_zpow_right₀ (by exact_mod_cast hb.le) h

theorem bz_lt {i j : ℤ} (h : i < j) : (b : ℚ) ^ i < (b : ℚ) ^ j :=
  zpow_lt_zpow_right₀ (by exact_mod_cast hb) h

/-- `b^j` is an integer multiple of `b^i` for `i ≤ j`. -/
theorem bz_mult {i j : ℤ} (h : i ≤ j) : ∃ n : ℤ, (b : ℚ) ^ j = n * (b : ℚ) ^ i := by
  refine ⟨(b : ℤ) ^ (j - i).toNat, ?_⟩
  push_cast
  rw [← zpow_natCast, ← zpow_add₀ (bpos hb).ne']
  congr 1; omega

theorem rndAt_err (k : ℤ) (q : ℚ) : |q - rhe (q / (b : ℚ) ^ k) * (b : ℚ) ^ k| ≤ (b : ℚ) ^ k / 2 := by
  have hp := bzpos hb k
  have h := rhe_err (q / (b : ℚ) ^ k)
  have : q - rhe (q / (b : ℚ) ^ k) * (b : ℚ) ^ k = (q / (b : ℚ) ^ k - rhe (q / (b : ℚ) ^ k)) * (b : ℚ) ^ k := by
    field_simp
  rw [this, abs_mul, abs_of_pos hp]
  nlinarith [abs_nonneg (q / (b : ℚ) ^ k - rhe (q / (b : ℚ) ^ k))]

theorem rndAt_eq_of_near {k : ℤ} {q : ℚ} {n : ℤ} (h : |q - n * (b : ℚ) ^ k| < (b : ℚ) ^ k / 2) :
    rhe (q / (b : ℚ) ^ k) * (b : ℚ) ^ k = n * (b : ℚ) ^ k := by
  have hp := bzpos hb k
  rw [rhe_eq_of_near (n := n)]
  have : q / (b : ℚ) ^ k - n = (q - n * (b : ℚ) ^ k) / (b : ℚ) ^ k := by field_simp
  rw [this, abs_div, abs_of_pos hp, div_lt_iff₀ hp]; linarith

theorem rndAt_mult (k : ℤ) (n : ℤ) :
    rhe ((n * (b : ℚ) ^ k) / (b : ℚ) ^ k) * (b : ℚ) ^ k = n * (b : ℚ) ^ k := by
  have hp := bzpos hb k
  rw [mul_div_cancel_right₀ _ hp.ne', rhe_int]

theorem rndAt_mono (k : ℤ) {x y : ℚ} (h : x ≤ y) :
    rhe (x / (b : ℚ) ^ k) * (b : ℚ) ^ k ≤ rhe (y / (b : ℚ) ^ k) * (b : ℚ) ^ k := by
  have hp := bzpos hb k
  have : rhe (x / (b : ℚ) ^ k) ≤ rhe (y / (b : ℚ) ^ k) := rhe_mono (by gcongr)
  have h' : (rhe (x / (b : ℚ) ^ k) : ℚ) ≤ rhe (y / (b : ℚ) ^ k) := by exact_mod_cast this
  nlinarith

/-- A grid-representable bound above `x` is still above after rounding. -/
theorem rndAt_le_of_mult {k j : ℤ} (hkj : k ≤ j) {x : ℚ} (h : x ≤ (b : ℚ) ^ j) :
    rhe (x / (b : ℚ) ^ k) * (b : ℚ) ^ k ≤ (b : ℚ) ^ j := by
  obtain ⟨n, hn⟩ := bz_mult hb hkj
  calc _ ≤ rhe ((b : ℚ) ^ j / (b : ℚ) ^ k) * (b : ℚ) ^ k := rndAt_mono hb k h
    _ = _ := by rw [hn, rndAt_mult hb]

theorem le_rndAt_of_mult {k j : ℤ} (hkj : k ≤ j) {x : ℚ} (h : (b : ℚ) ^ j ≤ x) :
    (b : ℚ) ^ j ≤ rhe (x / (b : ℚ) ^ k) * (b : ℚ) ^ k := by
  obtain ⟨n, hn⟩ := bz_mult hb hkj
  calc _ = rhe ((b : ℚ) ^ j / (b : ℚ) ^ k) * (b : ℚ) ^ k := by rw [hn, rndAt_mult hb]
    _ ≤ _ := rndAt_mono hb k h

omit hb in
theorem rnd_neg (q : ℚ) : rnd b fexp (-q) = - rnd b fexp q := by
  unfold rnd
  simp only [abs_neg, neg_div, rhe_neg]
  push_cast; ring

omit hb in
@[simp] theorem rnd_zero : rnd b fexp 0 = 0 := by simp [rnd]

theorem rnd_nonneg {q : ℚ} (h : 0 ≤ q) : 0 ≤ rnd b fexp q := by
  unfold rnd
  simp only
  have hp := bzpos hb (fexp (Int.log b |q|))
  have : (0:ℤ) ≤ rhe (q / (b:ℚ) ^ (fexp (Int.log b |q|))) := by
    have := rhe_mono (x := 0) (y := q / (b:ℚ) ^ (fexp (Int.log b |q|))) (by positivity)
    simpa using this
  have : (0:ℚ) ≤ rhe (q / (b:ℚ) ^ (fexp (Int.log b |q|))) := by exact_mod_cast this
  positivity

theorem log_eq_of {q : ℚ} {e : ℤ} (h1 : (b : ℚ) ^ e ≤ q) (h2 : q < (b : ℚ) ^ (e + 1)) : Int.log b q = e := by
  have hq : 0 < q := (bzpos hb e).trans_le h1
  have a := (Int.zpow_le_iff_le_log hb hq).1 h1
  have c := (Int.lt_zpow_iff_log_lt hb hq).1 h2
  omega

theorem rnd_err (q : ℚ) : |q - rnd b fexp q| ≤ (b : ℚ) ^ fexp (Int.log b |q|) / 2 := rndAt_err hb _ q

include hf

theorem rnd_mono_pos {x y : ℚ} (hx : 0 < x) (h : x ≤ y) : rnd b fexp x ≤ rnd b fexp y := by
  have hy : 0 < y := hx.trans_le h
  unfold rnd
  simp only [abs_of_pos hx, abs_of_pos hy]
  have hl := Int.log_mono_right (b := b) hx h
  rcases hl.eq_or_lt with he | hlt
  · rw [he]; exact rndAt_mono hb _ h
  · rcases hf.sep hlt with he | hle
    · rw [he]; exact rndAt_mono hb _ h
    · have hxl : x ≤ (b : ℚ) ^ Int.log b y := ((Int.lt_zpow_iff_log_lt hb hx).2 hlt).le
      have hyl : (b : ℚ) ^ Int.log b y ≤ y := Int.zpow_log_le_self hb hy
      exact (rndAt_le_of_mult hb ((hf.mono hl).trans hle) hxl).trans (le_rndAt_of_mult hb hle hyl)

theorem rnd_mono : Monotone (rnd b fexp) := by
  intro x y h
  rcases lt_trichotomy x 0 with hx | rfl | hx
  · rcases lt_or_ge y 0 with hy | hy
    · have := rnd_mono_pos hb hf (x := -y) (y := -x) (by linarith) (by linarith)
      rw [rnd_neg, rnd_neg] at this
      linarith
    · have h1 := rnd_nonneg hb (fexp := fexp) hy
      have h2 := rnd_nonneg hb (fexp := fexp) (q := -x) (by linarith)
      rw [rnd_neg] at h2
      linarith
  · rw [rnd_zero]; exact rnd_nonneg hb h
  · exact rnd_mono_pos hb hf hx h

/-- The rounded value of a positive number lies on its own grid. -/
theorem rnd_on_grid {q : ℚ} (hq : 0 < q) :
    ∃ n : ℤ, rnd b fexp q = n * (b : ℚ) ^ fexp (Int.log b (rnd b fexp q)) := by
  set e := Int.log b q with he
  have hr : rnd b fexp q = rhe (q / (b : ℚ) ^ fexp e) * (b : ℚ) ^ fexp e := by
    unfold rnd; simp only [abs_of_pos hq, ← he]
  have h1 : (b : ℚ) ^ e ≤ q := Int.zpow_log_le_self hb hq
  have h2 : q < (b : ℚ) ^ (e + 1) := Int.lt_zpow_succ_log_self hb q
  -- it suffices that the grid exponent of the result is at most `fexp e`
  have suff : fexp (Int.log b (rnd b fexp q)) ≤ fexp e ∨ (∃ j : ℤ, rnd b fexp q = (b : ℚ) ^ j ∧ fexp j ≤ j) →
      ∃ n : ℤ, rnd b fexp q = n * (b : ℚ) ^ fexp (Int.log b (rnd b fexp q)) := by
    rintro (h | ⟨j, hj, hj'⟩)
    · obtain ⟨n, hn⟩ := bz_mult hb h
      refine ⟨rhe (q / (b : ℚ) ^ fexp e) * n, ?_⟩
      calc rnd b fexp q = rhe (q / (b : ℚ) ^ fexp e) * (b : ℚ) ^ fexp e := hr
        _ = rhe (q / (b : ℚ) ^ fexp e) * (n * (b : ℚ) ^ fexp (Int.log b (rnd b fexp q))) := congrArg _ hn
        _ = _ := by push_cast; ring
    · rw [hj, Int.log_zpow hb]
      exact bz_mult hb hj'
  by_cases hs : fexp e ≤ e
  · -- normal case
    have l1 : (b : ℚ) ^ e ≤ rnd b fexp q := by rw [hr]; exact le_rndAt_of_mult hb hs h1
    have l2 : rnd b fexp q ≤ (b : ℚ) ^ (e + 1) := by
      rw [hr]; exact rndAt_le_of_mult hb (by omega) h2.le
    apply suff
    rcases l2.eq_or_lt with heq | hlt
    · right
      refine ⟨e + 1, heq, ?_⟩
      rcases hf.sep (show e < e + 1 by omega) with h | h <;> omega
    · left; rw [log_eq_of hb l1 hlt]
  · -- below the smallest grid step
    have hs' : e + 1 ≤ fexp e := by omega
    have l2 : rnd b fexp q ≤ (b : ℚ) ^ fexp e := by
      rw [hr]; exact rndAt_le_of_mult hb le_rfl (h2.le.trans (bz_le hb hs'))
    have l0 := rnd_nonneg hb (fexp := fexp) hq.le
    have hn1 : rhe (q / (b : ℚ) ^ fexp e) = 0 ∨ rhe (q / (b : ℚ) ^ fexp e) = 1 := by
      have hp := bzpos hb (fexp e)
      rw [hr] at l0 l2
      have a : (0:ℚ) ≤ rhe (q / (b : ℚ) ^ fexp e) := by
        by_contra hc; push Not at hc; nlinarith
      have c : (rhe (q / (b : ℚ) ^ fexp e) : ℚ) ≤ 1 := by
        by_contra hc; push Not at hc; nlinarith
      have a' : 0 ≤ rhe (q / (b : ℚ) ^ fexp e) := by exact_mod_cast a
      have c' : rhe (q / (b : ℚ) ^ fexp e) ≤ 1 := by exact_mod_cast c
      omega
    rcases hn1 with h | h
    · exact ⟨0, by rw [hr, h]; simp⟩
    · exact suff (Or.inr ⟨fexp e, by rw [hr, h]; simp, hf.sub e⟩)

theorem rnd_of_grid {q : ℚ} {n : ℤ} (h : q = n * (b : ℚ) ^ fexp (Int.log b |q|)) : rnd b fexp q = q := by
  have := rndAt_mult hb (fexp (Int.log b |q|)) n
  rw [← h] at this
  exact this

theorem rnd_idem (q : ℚ) : rnd b fexp (rnd b fexp q) = rnd b fexp q := by
  have pos : ∀ {q : ℚ}, 0 < q → rnd b fexp (rnd b fexp q) = rnd b fexp q := by
    intro q hq
    obtain ⟨n, hn⟩ := rnd_on_grid hb hf hq
    apply rnd_of_grid hb hf (n := n)
    rw [abs_of_nonneg (rnd_nonneg hb hq.le)]; exact hn
  rcases lt_trichotomy q 0 with h | rfl | h
  · have := pos (q := -q) (by linarith)
    rw [rnd_neg, rnd_neg] at this
    linarith
  · simp
  · exact pos h

end
end Spot
