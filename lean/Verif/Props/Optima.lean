import Verif.Props.MathTools
import Mathlib.Analysis.Real.Pi.Bounds
import Mathlib.Analysis.Calculus.Deriv.MeanValue
import Mathlib.Analysis.SpecialFunctions.Trigonometric.Deriv

/-!
# C61: the optima of the Himmelblau and Schwefel functions
-/

namespace Spot

/-! ### Himmelblau -/

theorem himmelblau_value (x y : ℝ) (l : List ℝ) : himmelblau (x :: y :: l) = .ok ((x ^ 2 + y - 11) ^ 2 + (x + y ^ 2 - 7) ^ 2) := by
  simp [himmelblau]

theorem himmelblau_zero (x y : ℝ) : (x ^ 2 + y - 11) ^ 2 + (x + y ^ 2 - 7) ^ 2 = 0 ↔ x ^ 2 + y = 11 ∧ x + y ^ 2 = 7 := by
  constructor
  · intro h
    have h3 : (x ^ 2 + y - 11) ^ 2 = 0 ∧ (x + y ^ 2 - 7) ^ 2 = 0 := by constructor <;> nlinarith [sq_nonneg (x ^ 2 + y - 11), sq_nonneg (x + y ^ 2 - 7)]
    have h4 := pow_eq_zero_iff (n := 2) (by norm_num) |>.1 h3.1
    have h5 := pow_eq_zero_iff (n := 2) (by norm_num) |>.1 h3.2
    constructor <;> linarith
  · rintro ⟨h1, h2⟩
    rw [show x ^ 2 + y - 11 = 0 by linarith, show x + y ^ 2 - 7 = 0 by linarith]; norm_num

/-- A cubic has a root between two points of different sign. -/
theorem cubic_root {a b : ℝ} (hab : a ≤ b) (h : (a ^ 3 + 3 * a ^ 2 - 13 * a - 38) * (b ^ 3 + 3 * b ^ 2 - 13 * b - 38) ≤ 0) :
    ∃ x, a ≤ x ∧ x ≤ b ∧ x ^ 3 + 3 * x ^ 2 - 13 * x - 38 = 0 := by
  have hc : ContinuousOn (fun x : ℝ => x ^ 3 + 3 * x ^ 2 - 13 * x - 38) (Set.Icc a b) := by fun_prop
  rcases le_total 0 (a ^ 3 + 3 * a ^ 2 - 13 * a - 38) with h1 | h1
  · rcases h1.eq_or_lt with h1 | h1
    · exact ⟨a, le_rfl, hab, h1.symm⟩
    · have h2 : b ^ 3 + 3 * b ^ 2 - 13 * b - 38 ≤ 0 := by
        by_contra h2; push Not at h2; nlinarith
      obtain ⟨x, hx, e⟩ := intermediate_value_Icc' hab hc ⟨h2, h1.le⟩
      exact ⟨x, hx.1, hx.2, e⟩
  · rcases h1.eq_or_lt with h1 | h1
    · exact ⟨a, le_rfl, hab, h1⟩
    · have h2 : 0 ≤ b ^ 3 + 3 * b ^ 2 - 13 * b - 38 := by
        by_contra h2; push Not at h2; nlinarith
      obtain ⟨x, hx, e⟩ := intermediate_value_Icc hab hc ⟨h1.le, h2⟩
      exact ⟨x, hx.1, hx.2, e⟩

/-- **C61.** The Himmelblau function is never negative, and zero at exactly four points: (3, 2) and one within 10⁻⁶ of each of the other three
documented optima. -/
theorem C61_himmelblau : ∃ p1 p2 p3 : ℝ × ℝ,
    (|p1.1 - (-2.805118)| ≤ 1e-6 ∧ |p1.2 - 3.131312| ≤ 1e-6) ∧ (|p2.1 - (-3.779310)| ≤ 1e-6 ∧ |p2.2 - (-3.283186)| ≤ 1e-6) ∧
    (|p3.1 - 3.584428| ≤ 1e-6 ∧ |p3.2 - (-1.848126)| ≤ 1e-6) ∧
    ∀ x y : ℝ, ∃ f, himmelblau [x, y] = .ok f ∧ 0 ≤ f ∧ (f = 0 ↔ (x, y) = (3, 2) ∨ (x, y) = p1 ∨ (x, y) = p2 ∨ (x, y) = p3) := by
  obtain ⟨r1, a1, b1, e1⟩ := cubic_root (a := -2.8051181) (b := -2.8051180) (by norm_num) (by norm_num)
  obtain ⟨r2, a2, b2, e2⟩ := cubic_root (a := -3.7793103) (b := -3.7793102) (by norm_num) (by norm_num)
  obtain ⟨r3, a3, b3, e3⟩ := cubic_root (a := 3.5844283) (b := 3.5844284) (by norm_num) (by norm_num)
  refine ⟨(r1, 11 - r1 ^ 2), (r2, 11 - r2 ^ 2), (r3, 11 - r3 ^ 2), ?_, ?_, ?_, ?_⟩
  · constructor <;> rw [abs_le] <;> constructor <;> norm_num <;> nlinarith
  · constructor <;> rw [abs_le] <;> constructor <;> norm_num <;> nlinarith
  · constructor <;> rw [abs_le] <;> constructor <;> norm_num <;> nlinarith
  intro x y
  refine ⟨_, himmelblau_value x y [], by positivity, ?_⟩
  rw [himmelblau_zero]
  -- the roots of the cubic
  have h12 : r1 - r2 ≠ 0 := by intro h; linarith
  have h13 : r1 - r3 ≠ 0 := by intro h; linarith
  have h23 : r2 - r3 ≠ 0 := by intro h; linarith
  have s12 : r1 ^ 2 + r1 * r2 + r2 ^ 2 + 3 * (r1 + r2) - 13 = 0 := by
    have : (r1 - r2) * (r1 ^ 2 + r1 * r2 + r2 ^ 2 + 3 * (r1 + r2) - 13) = 0 := by linarith [e1, e2, show (r1 - r2) * (r1 ^ 2 + r1 * r2 + r2 ^ 2 + 3 * (r1 + r2) - 13) =
      (r1 ^ 3 + 3 * r1 ^ 2 - 13 * r1 - 38) - (r2 ^ 3 + 3 * r2 ^ 2 - 13 * r2 - 38) by ring]
    exact (mul_eq_zero.1 this).resolve_left h12
  have s13 : r1 ^ 2 + r1 * r3 + r3 ^ 2 + 3 * (r1 + r3) - 13 = 0 := by
    have : (r1 - r3) * (r1 ^ 2 + r1 * r3 + r3 ^ 2 + 3 * (r1 + r3) - 13) = 0 := by linarith [e1, e3, show (r1 - r3) * (r1 ^ 2 + r1 * r3 + r3 ^ 2 + 3 * (r1 + r3) - 13) =
      (r1 ^ 3 + 3 * r1 ^ 2 - 13 * r1 - 38) - (r3 ^ 3 + 3 * r3 ^ 2 - 13 * r3 - 38) by ring]
    exact (mul_eq_zero.1 this).resolve_left h13
  have ssum : r1 + r2 + r3 + 3 = 0 := by
    have : (r2 - r3) * (r1 + r2 + r3 + 3) = 0 := by linarith [show (r2 - r3) * (r1 + r2 + r3 + 3) =
      (r1 ^ 2 + r1 * r2 + r2 ^ 2 + 3 * (r1 + r2) - 13) - (r1 ^ 2 + r1 * r3 + r3 ^ 2 + 3 * (r1 + r3) - 13) by ring]
    exact (mul_eq_zero.1 this).resolve_left h23
  have fac : ∀ x : ℝ, x ^ 3 + 3 * x ^ 2 - 13 * x - 38 = (x - r1) * (x - r2) * (x - r3) := by
    intro x
    have : r3 = -3 - r1 - r2 := by linarith
    subst this
    linear_combination (x - r1) * s12 + e1
  have quart : ∀ x : ℝ, x + (11 - x ^ 2) ^ 2 - 7 = (x - 3) * ((x - r1) * (x - r2) * (x - r3)) := by
    intro x; rw [← fac]; ring
  constructor
  · rintro ⟨h1, h2⟩
    have hy : y = 11 - x ^ 2 := by linarith
    have : (x - 3) * ((x - r1) * (x - r2) * (x - r3)) = 0 := by rw [← quart, ← hy]; linarith
    rcases mul_eq_zero.1 this with h | h
    · left; have hx : x = 3 := by linarith
      rw [hy, hx]; norm_num
    · rcases mul_eq_zero.1 h with h | h
      · rcases mul_eq_zero.1 h with h | h
        · right; left; have hx : x = r1 := by linarith
          rw [hy, hx]
        · right; right; left; have hx : x = r2 := by linarith
          rw [hy, hx]
      · right; right; right; have hx : x = r3 := by linarith
        rw [hy, hx]
  · have key : ∀ r : ℝ, (r - 3) * ((r - r1) * (r - r2) * (r - r3)) = 0 → (x, y) = (r, 11 - r ^ 2) → x ^ 2 + y = 11 ∧ x + y ^ 2 = 7 := by
      intro r hr e
      obtain ⟨rfl, rfl⟩ := Prod.mk.inj e
      exact ⟨by ring, by linarith [quart x]⟩
    rintro (h | h | h | h)
    · exact key 3 (by ring) (by rw [h]; norm_num)
    · exact key r1 (by ring) h
    · exact key r2 (by ring) h
    · exact key r3 (by ring) h

/-! ### Schwefel -/

/-- Comparing functions by their derivatives. -/
theorem le_of_deriv {f f' : ℝ → ℝ} (hf : ∀ x, HasDerivAt f (f' x) x) (h0 : f 0 = 0) (h : ∀ x, 0 < x → 0 ≤ f' x) {x : ℝ} (hx : 0 ≤ x) : 0 ≤ f x := by
  have : MonotoneOn f (Set.Ici 0) := by
    refine monotoneOn_of_deriv_nonneg (convex_Ici 0) (fun x _ => (hf x).continuousAt.continuousWithinAt) (fun x _ => (hf x).differentiableAt.differentiableWithinAt) ?_
    intro x hx
    rw [interior_Ici] at hx
    rw [(hf x).deriv]; exact h x hx
  rw [← h0]; exact this (Set.mem_Ici.2 le_rfl) (Set.mem_Ici.2 hx) hx

theorem cos_upper (x : ℝ) : Real.cos x ≤ 1 - x ^ 2 / 2 + x ^ 4 / 24 := by
  have key : ∀ x : ℝ, 0 ≤ x → 0 ≤ 1 - x ^ 2 / 2 + x ^ 4 / 24 - Real.cos x := by
    intro x hx
    refine le_of_deriv (f := fun x => 1 - x ^ 2 / 2 + x ^ 4 / 24 - Real.cos x) (f' := fun x => -x + x ^ 3 / 6 + Real.sin x) ?_ (by simp) ?_ hx
    · intro y
      have h1 : HasDerivAt (fun x : ℝ => 1 - x ^ 2 / 2 + x ^ 4 / 24) (0 - (2 : ℕ) * y ^ 1 / 2 + (4 : ℕ) * y ^ 3 / 24) y :=
        (((hasDerivAt_const y (1 : ℝ)).sub ((hasDerivAt_pow 2 y).div_const 2)).add ((hasDerivAt_pow 4 y).div_const 24))
      exact (h1.sub (Real.hasDerivAt_cos y)).congr_deriv (by push_cast; ring)
    · intro y hy
      have := Real.sin_gt_sub_cube hy; linarith
  rcases le_total 0 x with h | h
  · linarith [key x h]
  · have := key (-x) (by linarith)
    rw [Real.cos_neg] at this
    have e1 : (-x) ^ 2 = x ^ 2 := by ring
    have e2 : (-x) ^ 4 = x ^ 4 := by ring
    rw [e1, e2] at this; linarith

theorem sin_upper {x : ℝ} (hx : 0 ≤ x) : Real.sin x ≤ x - x ^ 3 / 6 + x ^ 5 / 120 := by
  have := le_of_deriv (f := fun x => x - x ^ 3 / 6 + x ^ 5 / 120 - Real.sin x) (f' := fun x => 1 - x ^ 2 / 2 + x ^ 4 / 24 - Real.cos x) (x := x) ?_ (by simp) ?_ hx
  · linarith
  · intro y
    have h1 : HasDerivAt (fun x : ℝ => x - x ^ 3 / 6 + x ^ 5 / 120) (1 - (3 : ℕ) * y ^ 2 / 6 + (5 : ℕ) * y ^ 4 / 120) y :=
      (((hasDerivAt_id y).sub ((hasDerivAt_pow 3 y).div_const 6)).add ((hasDerivAt_pow 5 y).div_const 120))
    exact (h1.sub (Real.hasDerivAt_sin y)).congr_deriv (by push_cast; ring)
  · intro y _; linarith [cos_upper y]

theorem cos_lower {x : ℝ} (hx : 0 ≤ x) : 1 - x ^ 2 / 2 + x ^ 4 / 24 - x ^ 6 / 720 ≤ Real.cos x := by
  have := le_of_deriv (f := fun x => Real.cos x - (1 - x ^ 2 / 2 + x ^ 4 / 24 - x ^ 6 / 720)) (f' := fun x => -Real.sin x - (-x + x ^ 3 / 6 - x ^ 5 / 120)) (x := x) ?_ (by simp) ?_ hx
  · linarith
  · intro y
    have h1 : HasDerivAt (fun x : ℝ => 1 - x ^ 2 / 2 + x ^ 4 / 24 - x ^ 6 / 720) (0 - (2 : ℕ) * y ^ 1 / 2 + (4 : ℕ) * y ^ 3 / 24 - (6 : ℕ) * y ^ 5 / 720) y :=
      ((((hasDerivAt_const y (1 : ℝ)).sub ((hasDerivAt_pow 2 y).div_const 2)).add ((hasDerivAt_pow 4 y).div_const 24)).sub ((hasDerivAt_pow 6 y).div_const 720))
    exact ((Real.hasDerivAt_cos y).sub h1).congr_deriv (by push_cast; ring)
  · intro y hy; linarith [sin_upper hy.le]

/-- `6.5 π` -/
theorem c_bounds : (20.4203522483 : ℝ) < 13 / 2 * Real.pi ∧ 13 / 2 * Real.pi < 20.4203522484 := by
  have h1 := Real.pi_gt_d20
  have h2 := Real.pi_lt_d20
  constructor <;> linarith

theorem sin_shift (u : ℝ) : Real.sin u = Real.cos (u - 13 / 2 * Real.pi) := by
  rw [← Real.cos_pi_div_two_sub, ← Real.cos_neg]
  have : -(Real.pi / 2 - u) = (u - 13 / 2 * Real.pi) + (3 : ℕ) * (2 * Real.pi) := by push_cast; ring
  rw [this, Real.cos_add_nat_mul_two_pi]

/-- The hump that contains the optimum. -/
theorem schwefel_poly (w : ℝ) (h1 : -1.571 ≤ w) (h2 : w ≤ 1.571) : (20.4203522484 + w) ^ 2 * (1 - w ^ 2 / 2 + w ^ 4 / 24) ≤ 418.9829 := by
  have e : 418.9829 - (20.4203522484 + w) ^ 2 * (1 - w ^ 2 / 2 + w ^ 4 / 24) =
      (w - 0.09717073) ^ 2 * ((39558684793797672507165170289168004601 / 187500000000000000000000000000000000) + (64097095478588021280377900891 / 3750000000000000000000000000) * w + (-53770332622445027517 / 3125000000000000000) * w ^ 2 + (-25646903723 / 15000000000) * w ^ 3 - w ^ 4 / 24) + ((23185763804555844835876707801899707090858599271 / 1875000000000000000000000000000000000000000000000000) + (-17107393078603591948660379761696499549 / 12500000000000000000000000000000000000000000) * w) := by
    ring
  have hw2 : w ^ 2 ≤ 2.5 := by nlinarith
  have hq : (0 : ℝ) ≤ (39558684793797672507165170289168004601 / 187500000000000000000000000000000000) + (64097095478588021280377900891 / 3750000000000000000000000000) * w + (-53770332622445027517 / 3125000000000000000) * w ^ 2 + (-25646903723 / 15000000000) * w ^ 3 - w ^ 4 / 24 := by
    have h4 : w ^ 4 ≤ 6.25 := by nlinarith [sq_nonneg w]
    have h3 : w ^ 3 ≤ 4 := by nlinarith [sq_nonneg w]
    linarith
  have hr : (0 : ℝ) ≤ (23185763804555844835876707801899707090858599271 / 1875000000000000000000000000000000000000000000000000) + (-17107393078603591948660379761696499549 / 12500000000000000000000000000000000000000000) * w := by linarith
  have := mul_nonneg (sq_nonneg (w - 0.09717073)) hq
  linarith

/-- One coordinate. -/
theorem schwefel_coord {x : ℝ} (h : |x| ≤ 500) : x * Real.sin (Real.sqrt |x|) ≤ 418.9829 := by
  obtain ⟨u, hu⟩ : ∃ u, u = Real.sqrt |x| := ⟨_, rfl⟩
  have hu0 : 0 ≤ u := by rw [hu]; exact Real.sqrt_nonneg _
  have hux : u ^ 2 = |x| := by rw [hu]; exact Real.sq_sqrt (abs_nonneg x)
  have hu1 : u ≤ 22.361 := by nlinarith
  have p1 := Real.pi_gt_d6
  have p2 := Real.pi_lt_d6
  rw [← hu]
  rcases le_total u (6 * Real.pi) with hA | hA
  · have h1 : |x| ≤ 360 := by rw [← hux]; nlinarith
    have h2 : |x * Real.sin u| ≤ 360 := by
      rw [abs_mul]
      have := Real.abs_sin_le_one u
      nlinarith [abs_nonneg x, abs_nonneg (Real.sin u)]
    have := le_abs_self (x * Real.sin u); linarith
  · have hs : Real.sin u = Real.sin (u - 6 * Real.pi) := by
      rw [show u - 6 * Real.pi = u - (3 : ℕ) * (2 * Real.pi) by push_cast; ring, Real.sin_sub_nat_mul_two_pi]
    rcases le_total u (7 * Real.pi) with hB | hB
    · have hsin : 0 ≤ Real.sin u := by rw [hs]; exact Real.sin_nonneg_of_nonneg_of_le_pi (by linarith) (by linarith)
      rcases le_total 0 x with hx | hx
      · rw [abs_of_nonneg hx] at hux
        rw [← hux, sin_shift]
        obtain ⟨w, hw⟩ : ∃ w, w = u - 13 / 2 * Real.pi := ⟨_, rfl⟩
        obtain ⟨c1, c2⟩ := c_bounds
        have w1 : -1.571 ≤ w := by rw [hw]; linarith
        have w2 : w ≤ 1.571 := by rw [hw]; linarith
        rw [← hw]
        have hc := cos_upper w
        have hcos : 0 ≤ Real.cos w := by rw [hw, ← sin_shift]; exact hsin
        have hP := schwefel_poly w w1 w2
        have hsq : u ^ 2 ≤ (20.4203522484 + w) ^ 2 := by
          have : u ≤ 20.4203522484 + w := by rw [hw]; linarith
          nlinarith
        calc u ^ 2 * Real.cos w ≤ (20.4203522484 + w) ^ 2 * (1 - w ^ 2 / 2 + w ^ 4 / 24) :=
              mul_le_mul hsq hc hcos (sq_nonneg _)
          _ ≤ 418.9829 := hP
      · have := mul_nonneg (neg_nonneg.2 hx) hsin; linarith
    · have hsm : Real.sin u = -Real.sin (u - 7 * Real.pi) := by
        rw [hs, show u - 6 * Real.pi = (u - 7 * Real.pi) + Real.pi by ring, Real.sin_add_pi]
      have h0 : 0 ≤ u - 7 * Real.pi := by linarith
      have hnn : 0 ≤ Real.sin (u - 7 * Real.pi) := Real.sin_nonneg_of_nonneg_of_le_pi h0 (by linarith)
      have hle : Real.sin (u - 7 * Real.pi) ≤ 0.4 := (Real.sin_le h0).trans (by linarith)
      rw [hsm]
      have hx := abs_le.1 h
      nlinarith

/-- At the documented optimum. -/
theorem schwefel_optimum : 418.98288 ≤ (420.9678 : ℝ) * Real.sin (Real.sqrt |420.9678|) := by
  rw [abs_of_pos (by norm_num)]
  obtain ⟨u, hu⟩ : ∃ u, u = Real.sqrt 420.9678 := ⟨_, rfl⟩
  have hux : u ^ 2 = 420.9678 := by rw [hu]; exact Real.sq_sqrt (by norm_num)
  have hu0 : 0 ≤ u := by rw [hu]; exact Real.sqrt_nonneg _
  have u1 : 20.517499847 ≤ u := by by_contra h; push Not at h; nlinarith
  have u2 : u ≤ 20.517499848 := by by_contra h; push Not at h; nlinarith
  rw [← hu, sin_shift]
  obtain ⟨w, hw⟩ : ∃ w, w = u - 13 / 2 * Real.pi := ⟨_, rfl⟩
  obtain ⟨c1, c2⟩ := c_bounds
  have w1 : 0.097147598 ≤ w := by rw [hw]; linarith
  have w2 : w ≤ 0.0971476 := by rw [hw]; linarith
  rw [← hw]
  have hc := cos_lower (x := w) (by linarith)
  have q1 : w ^ 2 ≤ 0.0971476 ^ 2 := pow_le_pow_left₀ (by linarith) w2 2
  have q2 : 0.097147598 ^ 4 ≤ w ^ 4 := pow_le_pow_left₀ (by norm_num) w1 4
  have q3 : w ^ 6 ≤ 0.0971476 ^ 6 := pow_le_pow_left₀ (by linarith) w2 6
  norm_num at q1 q2 q3 ⊢
  linarith

/-- **C61.** On its documented range [-500, 500] the Schwefel function is never negative, and at the documented optimum (420.9678, ...) it is at
most 0.00002 per coordinate: no point of the range is better by more. -/
theorem C61_schwefel (v : List ℝ) (h : ∀ x ∈ v, |x| ≤ 500) : 0 ≤ schwefel v ∧ schwefel (List.replicate v.length (420.9678 : ℝ)) ≤ 2e-5 * v.length ∧
    schwefel (List.replicate v.length (420.9678 : ℝ)) ≤ schwefel v + 2e-5 * v.length := by
  have hval : ∀ v : List ℝ, schwefel v = (v.map fun x => 418.9829 - x * Real.sin (Real.sqrt |x|)).sum := by
    intro v
    unfold schwefel
    rw [foldl_real]
    have habs : ∀ x : ℝ, Arith.abs x = |x| := by
      intro x; unfold Arith.abs
      rcases lt_or_ge x 0 with h | h
      · rw [if_pos (show Arith.lt x (lit 0) = true from decide_eq_true (by simpa using h)), abs_of_neg h]
      · rw [if_neg (by simpa [Arith.lt] using h), abs_of_nonneg h]
    simp only [habs]
    induction v with
    | nil => simp
    | cons a v ih =>
      rw [List.map_cons, List.map_cons, List.sum_cons, List.sum_cons, ← ih]
      simp only [lit_real, List.length_cons]
      push_cast
      show _ - (0 + (a * Real.sin (Real.sqrt |a|) + _)) = (_ : ℝ)
      ring
  have h1 : 0 ≤ schwefel v := by
    rw [hval]
    refine List.sum_nonneg fun y hy => ?_
    obtain ⟨x, hx, rfl⟩ := List.mem_map.1 hy
    linarith [schwefel_coord (h x hx)]
  have h2 : schwefel (List.replicate v.length (420.9678 : ℝ)) ≤ 2e-5 * v.length := by
    rw [hval, List.map_replicate, List.sum_replicate, nsmul_eq_mul, mul_comm]
    refine mul_le_mul_of_nonneg_right ?_ (by positivity)
    linarith [schwefel_optimum]
  exact ⟨h1, h2, by linarith⟩

end Spot
