import Verif.Lemmas.CRefInit
import Verif.Lemmas.Rounded

/-!
# No value that the strategy parameters of CMA compare is NaN (C112)

Intervals for the intermediate results in doubles.
-/

namespace Spot.Ref

/-- A finite number from `l` to `u`. -/
def In (x : Dbl) (l u : ℚ) : Prop := ∃ q, x = .fin q ∧ l ≤ q ∧ q ≤ u

/-- A double. -/
def IsDbl (q : ℚ) : Prop := bin64 q = q ∧ -Dbl.maxQ ≤ q ∧ q ≤ Dbl.maxQ

instance (q : ℚ) : Decidable (IsDbl q) := by unfold IsDbl; infer_instance

theorem In.ofQ {q l u : ℚ} (h1 : l ≤ q) (h2 : q ≤ u) (hl : IsDbl l) (hu : IsDbl u) : In (Dbl.ofQ q) l u := by
  have e1 : l ≤ bin64 q := by have := bin64_mono h1; rwa [hl.1] at this
  have e2 : bin64 q ≤ u := by have := bin64_mono h2; rwa [hu.1] at this
  refine ⟨bin64 q, ?_, e1, e2⟩
  unfold Dbl.ofQ
  dsimp only
  rw [if_neg (by have := hu.2.2; linarith), if_neg (by have := hl.2.1; linarith)]

section
variable [Libm] {x y : Dbl} {a b c d l u : ℚ}

theorem In.lit {q : ℚ} (h1 : l ≤ q) (h2 : q ≤ u) (hl : IsDbl l) (hu : IsDbl u) : In (lit q : Dbl) l u := In.ofQ h1 h2 hl hu

theorem In.add (hx : In x a b) (hy : In y c d) (h1 : l ≤ a + c) (h2 : b + d ≤ u) (hl : IsDbl l) (hu : IsDbl u) : In (x + y) l u := by
  obtain ⟨q, rfl, p1, p2⟩ := hx
  obtain ⟨r, rfl, p3, p4⟩ := hy
  exact In.ofQ (by linarith) (by linarith) hl hu

theorem In.sub (hx : In x a b) (hy : In y c d) (h1 : l ≤ a - d) (h2 : b - c ≤ u) (hl : IsDbl l) (hu : IsDbl u) : In (x - y) l u := by
  obtain ⟨q, rfl, p1, p2⟩ := hx
  obtain ⟨r, rfl, p3, p4⟩ := hy
  exact In.ofQ (by linarith) (by linarith) hl hu

theorem In.mul (hx : In x a b) (hy : In y c d) (ha : 0 ≤ a) (hc : 0 ≤ c) (h1 : l ≤ a * c) (h2 : b * d ≤ u) (hl : IsDbl l) (hu : IsDbl u) : In (x * y) l u := by
  obtain ⟨q, rfl, p1, p2⟩ := hx
  obtain ⟨r, rfl, p3, p4⟩ := hy
  exact In.ofQ (h1.trans (mul_le_mul p1 p3 hc (ha.trans p1))) ((mul_le_mul p2 p4 (hc.trans p3) (by linarith)).trans h2) hl hu

theorem In.div (hx : In x a b) (hy : In y c d) (ha : 0 ≤ a) (hc : 0 < c) (h1 : l ≤ 0) (h2 : b / c ≤ u) (hl : IsDbl l) (hu : IsDbl u) : In (x / y) l u := by
  obtain ⟨q, rfl, p1, p2⟩ := hx
  obtain ⟨r, rfl, p3, p4⟩ := hy
  have hr : 0 < r := by linarith
  have e : (Dbl.fin q / Dbl.fin r : Dbl) = Dbl.ofQ (q / r) := by
    show Dbl.div _ _ = _
    unfold Dbl.div
    simp [hr.ne']
  rw [e]
  refine In.ofQ (h1.trans (div_nonneg (ha.trans p1) hr.le)) (le_trans ?_ h2) hl hu
  exact div_le_div₀ (by linarith) p2 hc p3

theorem In.mono (hx : In x a b) (h1 : l ≤ a) (h2 : b ≤ u) : In x l u := by
  obtain ⟨q, rfl, p1, p2⟩ := hx
  exact ⟨q, rfl, by linarith, by linarith⟩

theorem In.min (hx : In x a b) (hy : In y c d) (h1 : l ≤ a) (h2 : l ≤ c) (h3 : b ≤ u) (h4 : d ≤ u) : In (Arith.min x y) l u := by
  unfold Arith.min
  split
  · exact hy.mono h2 h4
  · exact hx.mono h1 h3

theorem In.eq (hx : In x a b) : Arith.eq x x = true := by
  obtain ⟨q, rfl, -, -⟩ := hx
  show Dbl.eq (.fin q) (.fin q) = true
  simp [Dbl.eq]

theorem In.ceil {z : Int} (hx : In x 0 z) : In (Arith.ceil x) 0 z := by
  obtain ⟨q, rfl, p1, p2⟩ := hx
  refine ⟨⌈q⌉, rfl, ?_, ?_⟩
  · exact_mod_cast Int.ceil_nonneg p1
  · exact_mod_cast Int.ceil_le.2 p2

/-- The intervals of cmaes_readpara_SupplementDefaults. -/
theorem regular_double {n : Nat} {p : CmaPar Dbl} (hn : 1 ≤ n) (hn2 : n ≤ 2 ^ 63) (hl : 1 ≤ p.lambda) (hl2 : p.lambda ≤ 2 ^ 63)
    (hq : In p.mueff 1 (2 ^ 64)) (hc : p.mucov = p.mueff) (hcc : p.ccov = cmaCcov n p.mueff) (hs : ∀ q : ℚ, 0 ≤ q → Libm.sqrt (.fin q) ≠ .nan) : Regular n p := by
  have hn' : (1 : ℚ) ≤ n := by exact_mod_cast hn
  have hn2' : (n : ℚ) ≤ 2 ^ 63 := by exact_mod_cast hn2
  have hl' : (1 : ℚ) ≤ p.lambda := by exact_mod_cast hl
  have hl2' : (p.lambda : ℚ) ≤ 2 ^ 63 := by exact_mod_cast hl2
  have d0 : IsDbl 0 := by decide +kernel
  have d1 : IsDbl 1 := by decide +kernel
  have d2 : IsDbl 2 := by decide +kernel
  have i0 : In (lit 0 : Dbl) 0 0 := In.lit le_rfl le_rfl d0 d0
  have i1 : In (lit 1 : Dbl) 1 1 := In.lit le_rfl le_rfl d1 d1
  have i2 : In (lit 2 : Dbl) 2 2 := In.lit le_rfl le_rfl d2 d2
  have i3 : In (lit 3 : Dbl) 3 3 := In.lit le_rfl le_rfl (by decide +kernel) (by decide +kernel)
  have p63 : IsDbl (2 ^ 63) := by decide +kernel
  have p64 : IsDbl (2 ^ 64) := by decide +kernel
  have p65 : IsDbl (2 ^ 65) := by decide +kernel
  have p66 : IsDbl (2 ^ 66) := by decide +kernel
  have p83 : IsDbl (2 ^ 83) := by decide +kernel
  have p83' : IsDbl (-2 ^ 83) := by decide +kernel
  have p128 : IsDbl (2 ^ 128) := by decide +kernel
  have p129 : IsDbl (2 ^ 129) := by decide +kernel
  have p130 : IsDbl (2 ^ 130) := by decide +kernel
  have p140 : IsDbl (2 ^ 140) := by decide +kernel
  have p141 : IsDbl (2 ^ 141) := by decide +kernel
  have in' : In (lit (n : ℚ) : Dbl) 1 (2 ^ 63) := In.lit hn' hn2' d1 p63
  have hlam : In (lit (p.lambda : ℚ) : Dbl) 1 (2 ^ 63) := In.lit hl' hl2' d1 p63
  have in3 : In (lit ((n : ℚ) + 3) : Dbl) 1 (2 ^ 64) := In.lit (by linarith) (by linarith) d1 p64
  have i900 : In (lit 900 : Dbl) 1 1024 := In.lit (by norm_num) (by norm_num) d1 (by decide +kernel)
  have max1 : In (cmaMaxFunEvals Dbl n) 1 (2 ^ 140) := by
    unfold cmaMaxFunEvals
    refine ((((i1.mul i900 (l := 1) (u := 1024) ?_ ?_ ?_ ?_ d1 (by decide +kernel)).mul in3 (l := 1) (u := 2 ^ 74) ?_ ?_ ?_ ?_ d1 (by decide +kernel))).mul in3 ?_ ?_ ?_ ?_ d1 p140)
      <;> norm_num
  have lim : In (cmaMaxFunEvals Dbl n / lit (p.lambda : ℚ)) 0 (2 ^ 140) := max1.div hlam (by norm_num) (by norm_num) (by norm_num) (by norm_num) d0 p140
  have limUp : In (Arith.ceil (cmaMaxFunEvals Dbl n / lit (p.lambda : ℚ))) 0 (2 ^ 140) := by
    have := In.ceil (z := 2 ^ 140) (by exact_mod_cast lim)
    exact_mod_cast this
  have inv : In (lit 1 / p.mueff) 0 1 := i1.div hq (by norm_num) (by norm_num) le_rfl (by norm_num) d0 d1
  have inv' : In (lit 1 - lit 1 / p.mueff) 0 1 := i1.sub inv (by norm_num) (by norm_num) d0 d1
  have s14 : In (lit (7071 / 5000) : Dbl) 1 2 := In.lit (by norm_num) (by norm_num) d1 d2
  have n14 : In (lit (n : ℚ) + lit (7071 / 5000) : Dbl) 1 (2 ^ 64) := in'.add s14 (by norm_num) (by norm_num) d1 p64
  have n2 : In (lit (n : ℚ) + lit 2 : Dbl) 1 (2 ^ 64) := in'.add i2 (by norm_num) (by norm_num) d1 p64
  have ccov : In p.ccov 0 (2 ^ 66) := by
    rw [hcc]
    unfold cmaCcov
    dsimp only
    have t1 : In (lit 2 / ((lit (n : ℚ) + lit (7071 / 5000)) * (lit (n : ℚ) + lit (7071 / 5000))) : Dbl) 0 2 :=
      i2.div (n14.mul n14 (l := 1) (u := 2 ^ 128) (by norm_num) (by norm_num) (by norm_num) (by norm_num) d1 p128) (by norm_num) (by norm_num) le_rfl (by norm_num) d0 d2
    have t2 : In ((lit 2 * p.mueff - lit 1) / ((lit (n : ℚ) + lit 2) * (lit (n : ℚ) + lit 2) + p.mueff) : Dbl) 0 (2 ^ 65) := by
      refine In.div (a := 0) (b := 2 ^ 65) (c := 1) (d := 2 ^ 129) ?_ ?_ le_rfl one_pos le_rfl (by norm_num) d0 p65
      · exact (i2.mul hq (l := 2) (u := 2 ^ 65) (by norm_num) (by norm_num) (by norm_num) (by norm_num) d2 p65).sub i1 (by norm_num) (by norm_num) d0 p65
      · exact (n2.mul n2 (l := 1) (u := 2 ^ 128) (by norm_num) (by norm_num) (by norm_num) (by norm_num) d1 p128).add hq (by norm_num) (by norm_num) d1 p129
    have t3 : ∀ y : Dbl, In y 0 (2 ^ 65) → In (if Arith.lt (lit 1) y = true then (lit 1 : Dbl) else y) 0 (2 ^ 65) := by
      intro y hy
      split
      · exact i1.mono (by norm_num) (by norm_num)
      · exact hy
    exact (inv.mul t1 (l := 0) (u := 2) (by norm_num) (by norm_num) (by norm_num) (by norm_num) d0 d2).add
      (inv'.mul (t3 _ t2) (l := 0) (u := 2 ^ 65) (by norm_num) (by norm_num) (by norm_num) (by norm_num) d0 p65) (by norm_num) (by norm_num) d0 p66
  have fac : ∀ d, In (facDiag Dbl n d) 0 (2 ^ 64) := by
    intro d
    unfold facDiag
    split
    · exact (in'.add (In.lit (l := 1) (u := 2) (by norm_num) (by norm_num) d1 d2) (l := 1) (u := 2 ^ 64) (by norm_num) (by norm_num) d1 p64).div i3 (by norm_num) (by norm_num) le_rfl
        (by norm_num) d0 p64
    · exact i1.mono (by norm_num) (by norm_num)
  have rate : ∀ d, In (p.ccov * (lit 1 / p.mucov) * facDiag Dbl n d) 0 (2 ^ 130) := fun d => by
    rw [hc]
    exact (ccov.mul inv (l := 0) (u := 2 ^ 66) (by norm_num) (by norm_num) (by norm_num) (by norm_num) d0 p66).mul (fac d) (by norm_num) (by norm_num) (by norm_num) (by norm_num) d0 p130
  constructor
  · have h := (hq.sub i1 (l := 0) (u := 2 ^ 64) (by norm_num) (by norm_num) d0 p64).div (in'.add i1 (l := 1) (u := 2 ^ 64) (by norm_num) (by norm_num) d1 p64) (l := 0) (u := 2 ^ 64)
      (by norm_num) (by norm_num) le_rfl (by norm_num) d0 p64
    obtain ⟨q, e, h1, -⟩ := h
    rw [e]
    have := hs q h1
    show Dbl.eq (Dbl.sub (Libm.sqrt (.fin q)) (Dbl.ofQ 1)) (Dbl.sub (Libm.sqrt (.fin q)) (Dbl.ofQ 1)) = true
    rw [show Dbl.ofQ 1 = .fin 1 by decide +kernel]
    generalize Libm.sqrt (.fin q) = y at this
    cases y with
    | nan => exact absurd rfl this
    | fin r =>
      show Dbl.eq (Dbl.ofQ (r + -1)) (Dbl.ofQ (r + -1)) = true
      unfold Dbl.ofQ
      dsimp only
      split
      · rfl
      · split
        · rfl
        · simp [Dbl.eq]
    | pinf => rfl
    | ninf => rfl
  · exact lim.eq
  · exact limUp.eq
  · dsimp only
    have m6 : In (lit (1 / 10 ^ 6) : Dbl) (1 / 2 ^ 20) 1 := In.lit (by norm_num) (by norm_num) (by decide +kernel) d1
    have h := in'.div (m6.add (limUp.min lim (l := 0) (u := 2 ^ 140) le_rfl le_rfl le_rfl le_rfl) (l := 1 / 2 ^ 20) (u := 2 ^ 141) (by norm_num) (by norm_num) (by decide +kernel) p141)
      (l := 0) (u := 2 ^ 83) (by norm_num) (by norm_num) le_rfl (by norm_num) d0 p83
    exact (i1.sub h (l := -2 ^ 83) (u := 1) (by norm_num) (by norm_num) p83' d1).eq
  · exact fun d => (rate d).eq
  · intro d
    rw [hc]
    exact ((ccov.mul inv' (l := 0) (u := 2 ^ 66) (by norm_num) (by norm_num) (by norm_num) (by norm_num) d0 p66).mul (fac d) (l := 0) (u := 2 ^ 130) (by norm_num) (by norm_num) (by norm_num) (by norm_num)
      d0 p130).eq
  · intro d
    have h : In (Cma.ccov1 p n d) 0 (2 ^ 130) := In.min (rate d) i1 le_rfl (by norm_num) le_rfl (by norm_num)
    exact (i1.sub h (l := -2 ^ 130) (u := 1) (by norm_num) (by norm_num) (by decide +kernel) d1).eq

end

end Spot.Ref
