import Verif.Lemmas.Evolution
import Verif.Lemmas.Arith
import Mathlib.Analysis.Convex.Combination

/-! # Properties of mes_optimizer and eva_optimizer (C43 - C46) -/

namespace Spot

/-! ## C43: samples are within the bounds -/

/-- **C43.** For a parameter with `min <= max`, `sample_parameter` returns a value within the range, for every mean, standard deviation
and random stream without NaN. -/
theorem C43_parameter [Libm] (R : Rng Dbl) (hR : R.NoNaN) (mean stdev : Dbl) (p : ParInfo) (hp : Dbl.le p.min p.max = true) (e : R.Eng) :
    p.isWithinRange (sampleParameter R mean stdev p.min p.max e).1 = true := by
  have := sampleLoop_within R hp hR 100 (R.normal mean stdev) e
  unfold ParInfo.isWithinRange
  rw [Bool.and_eq_true]
  exact this

/-- Valid parameters have `min <= max`. -/
theorem valid_le {p : ParInfo} (h : p.isValid = true) : Dbl.le p.min p.max = true := by
  simp only [ParInfo.isValid, Bool.and_eq_true] at h
  tauto

theorem feasible_of_within : ∀ (ps : List ParInfo) (v : List Dbl), List.Forall₂ (fun p x => p.isWithinRange x = true) ps v →
    ObjInfo.feasibleLoop ps v = .ok true := by
  intro ps v h
  induction h with
  | nil => rfl
  | @cons p x ps v h _ ih =>
    simp only [ParInfo.isWithinRange, Bool.and_eq_true] at h
    simp only [ObjInfo.feasibleLoop, (Dbl.le_iff.1 h.1).2, (Dbl.le_iff.1 h.2).2, Bool.or_self, Bool.false_eq_true, if_false]
    exact ih

theorem finRange_map_get {α : Type} (l : List α) : (List.finRange l.length).map l.get = l := by
  rw [← List.ofFn_eq_map, List.ofFn_get]

/-- **C43.** A population sampled by MES or EVA has `lambda` individuals, and each of them is a feasible point, rounded to 8 digits by
`set_values`: for every distribution, options and random stream without NaN. -/
theorem C43_population [Libm] (R : Rng Dbl) (hR : R.NoNaN) (info : ObjInfo) (hv : ∀ p ∈ info.pars, p.isValid = true) (ofs ofsStd : Dbl)
    (lambda : Nat) (s : Es Dbl info.dim) (e : R.Eng) :
    (samplePopulation R (Bounds.ofInfo info) ofs ofsStd lambda s e).1.length = lambda ∧
    ∀ x ∈ (samplePopulation R (Bounds.ofInfo info) ofs ofsStd lambda s e).1, ∃ v : List Dbl, x = v.map rounded ∧
      v.length = info.dim ∧ info.isFeasible v = .ok true ∧ ∀ y ∈ v, y ≠ .nan := by
  have key := samplePop_all R (Bounds.ofInfo info) s (fun i v => (info.pars.get i).isWithinRange v = true)
    (fun m st i e => C43_parameter R hR m st _ (valid_le (hv _ (List.get_mem ..))) e) lambda (R.normal ofs ofsStd) e
  refine ⟨key.1, fun x hx => ?_⟩
  obtain ⟨v, h1, h2⟩ := key.2 x hx
  have hr : (Arith.round8 : Dbl → Dbl) = rounded := by funext y; cases y <;> rfl
  have h3 : List.Forall₂ (fun p x => p.isWithinRange x = true) info.pars v := by
    have e1 : info.pars = (List.finRange info.dim).map info.pars.get := (finRange_map_get info.pars).symm
    rw [e1]
    exact List.forall₂_map_left_iff.2 h2
  refine ⟨v, by rw [h1, hr], h3.length_eq.symm, feasible_of_within _ _ h3, fun y hy => ?_⟩
  obtain ⟨k, hk, rfl⟩ := List.mem_iff_getElem.1 hy
  have := h3.get (i := k) (by rw [h3.length_eq]; exact hk) hk
  simp only [ParInfo.isWithinRange, Bool.and_eq_true] at this
  exact Dbl.ne_nan_of_le_right this.1

/-- **C43 (finding).** Random numbers that are NaN (as with a NaN standard deviation) are returned as they are. -/
theorem C43_nan_draws [Libm] (R : Rng Dbl) (hR : ∀ d e, (R.draw d e).1 = .nan) (mean stdev lo hi : Dbl) (e : R.Eng) :
    (sampleParameter R mean stdev lo hi e).1 = .nan := by
  have key : ∀ (k : Nat) (d : R.Dist) (e : R.Eng), (sampleLoop R lo hi k d e).1 = .nan := by
    intro k
    induction k with
    | zero =>
      intro d e
      simp only [sampleLoop, clamped, hR]
      show (if Dbl.lt .nan lo = true then lo else if Dbl.lt hi .nan = true then hi else .nan) = .nan
      simp
    | succ k ih =>
      intro d e
      simp only [sampleLoop, hR]
      have : (Arith.le lo Dbl.nan && Arith.le Dbl.nan hi) = false := by
        show (Dbl.le lo .nan && Dbl.le .nan hi) = false
        simp
      rw [this]
      exact ih _ _
  exact key 100 _ e

/-- A C library for examples that do not use it. -/
@[reducible] def noLibm : Libm := ⟨id, id, id, fun a _ => a⟩

/-- A random stream that counts: 0.5, 1.5, 2.5, ... -/
def countRng : Rng Dbl := { Eng := Nat, Dist := Unit, normal := fun _ _ => (), draw := fun d e => (.fin (e + 1/2), d, e + 1) }

example : countRng.NoNaN := fun _ _ h => by cases h

/-- The first value that fits is taken, the range [3, 4] is reached with the fourth number. -/
example : letI := noLibm; (sampleParameter countRng (.fin 0) (.fin 1) (.fin 3) (.fin 4) (0 : Nat)).1 = .fin (7/2) := by decide +kernel

/-! ## C44: variances are not negative -/

variable {n : Nat}

/-- The rate with which the variance is updated. -/
def EsAlg.varRate {K : Type} : EsAlg K → K
  | .mes o => o.varSigma
  | .eva o => o.varUpdate

/-- Any number of updates, from any populations and orders. -/
inductive Updates {K : Type} [Arith K] (alg : EsAlg K) (eps : K) (mu : Int) (P : List (Fin n → K) → Prop) (s : Es K n) : Es K n → Prop
  | nil : Updates alg eps mu P s s
  | snoc {t t' order pop} (h : Updates alg eps mu P s t) (hp : P pop) (hu : updateDistribution alg eps mu t order pop = .ok t') :
      Updates alg eps mu P s t'

theorem Updates.mono {K : Type} [Arith K] {alg : EsAlg K} {eps : K} {mu : Int} {P Q : List (Fin n → K) → Prop} (hPQ : ∀ pop, P pop → Q pop)
    {s t : Es K n} (h : Updates alg eps mu P s t) : Updates alg eps mu Q s t := by
  induction h with
  | nil => exact .nil
  | snoc h hp hu ih => exact ih.snoc (hPQ _ hp) hu

theorem update_selected {K : Type} [Arith K] {alg : EsAlg K} {eps : K} {mu : Int} {t t' : Es K n} {order : List Nat} {pop : List (Fin n → K)}
    (h : updateDistribution alg eps mu t order pop = .ok t') : ∃ sel, selected mu order pop = .ok sel ∧ t' = alg.updateWith eps mu t sel := by
  unfold updateDistribution at h
  rw [Res.bind_eq_ok] at h
  obtain ⟨sel, h1, h2⟩ := h
  cases h2
  exact ⟨sel, h1, rfl⟩

theorem updateWith_var {K : Type} [Arith K] (alg : EsAlg K) (eps : K) (mu : Int) (t : Es K n) (sel : List (Fin n → K)) (j : Fin n) :
    (alg.updateWith eps mu t sel).var j = upd (t.var j) (selVar eps t sel mu j) alg.varRate := by
  cases alg with
  | mes o =>
    show (mesUpdateWith eps o mu t sel).var j = _
    unfold mesUpdateWith
    split <;> rfl
  | eva o => rfl

theorem selVar_notNeg [Libm] (eps : Dbl) (t : Es Dbl n) (sel : List (Fin n → Dbl)) {mu : Int} (hmu : 0 ≤ mu) (j : Fin n) :
    Dbl.NotNeg (selVar eps t sel mu j) := by
  have h1 : Dbl.NotNeg (sel.foldl (fun a x => Dbl.add a (squared (x j - projected eps t.mean t.mom x j))) (Dbl.ofQ 0)) :=
    Dbl.NotNeg.foldl (fun x => squared (x j - projected eps t.mean t.mom x j)) (fun x => Dbl.notNeg_squared _) sel _ (by rw [Dbl.ofQ_zero]; exact Dbl.notNeg_fin.2 (le_refl 0))
  exact Dbl.NotNeg.div h1 (Dbl.notNeg_ofQ (by exact_mod_cast hmu))

/-- **C44.** In floating-point arithmetic, with a variance update rate between 0 and 1, no variance is ever negative, from the construction
of the optimizer on and after any number of updates from any populations: its square root is never that of a negative number. -/
theorem C44_never_negative [Libm] (alg : EsAlg Dbl) (h0 : Dbl.le (.fin 0) alg.varRate = true) (h1 : Dbl.le alg.varRate (.fin 1) = true)
    (eps : Dbl) (mu : Int) (mean std : Fin n → Dbl) {t : Es Dbl n} (h : Updates alg eps mu (fun _ => True) (Es.init mean std) t) (j : Fin n) :
    Dbl.lt (t.var j) (.fin 0) = false := by
  induction h with
  | nil => exact Dbl.notNeg_squared (std j)
  | @snoc t t' order pop h hp hu ih =>
    obtain ⟨sel, h2, rfl⟩ := update_selected hu
    rw [updateWith_var]
    have e1 : (lit 1 : Dbl) = .fin 1 := Dbl.ofQ_one
    show Dbl.NotNeg (Dbl.add (Dbl.mul (Dbl.sub (lit 1) alg.varRate) (t.var j)) (Dbl.mul alg.varRate _))
    rw [e1]
    exact ((Dbl.NotNeg.one_sub h1).mul ih).add ((Dbl.NotNeg.of_le h0).mul (selVar_notNeg eps t sel (selected_ok h2).1 j))

/-- **C44.** The same for a whole run of the optimizer. -/
theorem C44_run [Libm] (E : OptEnv) {R : Rng Dbl} (c : EsCfg R n) (h0 : Dbl.le (.fin 0) c.alg.varRate = true)
    (h1 : Dbl.le c.alg.varRate (.fin 1) = true) (F : Pt → Option Dbl) (mean std : Fin n → Dbl) (s t : EsOpt R n) (hs : s.dist = Es.init mean std)
    {ps : List (List Pt)} (h : EsOpt.Runs E c F s ps t) (j : Fin n) : Dbl.lt (t.dist.var j) (.fin 0) = false := by
  have : Updates c.alg c.eps c.mu (fun _ => True) (Es.init mean std) t.dist := by
    induction h with
    | nil => rw [hs]; exact .nil
    | snoc h st ih =>
      cases st with
      | ok hp he ho hu => exact ih.snoc trivial hu
      | failed hp he => exact ih
  exact C44_never_negative c.alg h0 h1 c.eps c.mu mean std this j

theorem selVar_nonneg (eps : ℝ) (t : Es ℝ n) (sel : List (Fin n → ℝ)) {mu : Int} (hmu : 0 ≤ mu) (j : Fin n) : 0 ≤ selVar eps t sel mu j := by
  unfold selVar
  refine div_nonneg ?_ ?_
  · refine le_of_le_of_eq ?_ (foldl_real (fun x => squared (x j - projected eps t.mean t.mom x j)) sel _).symm
    rw [lit_real, Rat.cast_zero, zero_add]
    refine List.sum_nonneg ?_
    intro y hy
    rw [List.mem_map] at hy
    obtain ⟨x, -, rfl⟩ := hy
    rw [squared_real]
    positivity
  · rw [lit_real]; exact_mod_cast hmu

/-- **C44.** In exact arithmetic the variances stay positive for a rate below 1, if all initial standard deviations are; `current_std` is
then the positive number whose square is the variance. -/
theorem C44_positive (alg : EsAlg ℝ) (h0 : 0 ≤ alg.varRate) (h1 : alg.varRate < 1) (eps : ℝ) (mu : Int) (mean std : Fin n → ℝ)
    (hstd : ∀ j, 0 < std j) {t : Es ℝ n} (h : Updates alg eps mu (fun _ => True) (Es.init mean std) t) (j : Fin n) :
    0 < t.var j ∧ 0 < t.std j ∧ t.std j * t.std j = t.var j := by
  have key : 0 < t.var j := by
    induction h with
    | nil => show 0 < squared (std j); have := hstd j; unfold squared; positivity
    | @snoc t t' order pop h hp hu ih =>
      obtain ⟨sel, h2, rfl⟩ := update_selected hu
      rw [updateWith_var]
      have h3 := selVar_nonneg eps t sel (selected_ok h2).1 j
      have h4 : 0 < 1 - alg.varRate := by linarith
      unfold upd
      rw [lit_real, Rat.cast_one]
      positivity
  exact ⟨key, Real.sqrt_pos.2 key, Real.mul_self_sqrt key.le⟩

/-- **C44 (finding).** With a rate above 1, which the options allow, a variance can become negative in the first update. -/
theorem C44_rate_above_one : ∃ (o : EvaOpts Dbl) (s s' : Es Dbl 1) (order : List Nat) (pop : List (Fin 1 → Dbl)), letI := noLibm
    updateDistribution (.eva o) (.fin 0) 1 s order pop = .ok s' ∧ Dbl.lt (s'.var 0) (.fin 0) = true := by
  letI := noLibm
  exact ⟨{ stepSize := .fin 1, varUpdate := .fin 2, evUpdate := .fin 1, evOffset := .fin 0, evStdev := .fin 0 },
    Es.init (fun _ => .fin 1) (fun _ => .fin 1), _, [0], [fun _ => .fin 1], rfl, by decide +kernel⟩

/-- The hypotheses of `C44_never_negative` hold for the default options. -/
example : letI := noLibm; Dbl.le (.fin 0) (EsAlg.mes (MesOpts.default (K := Dbl))).varRate = true ∧
    Dbl.le (EsAlg.mes (MesOpts.default (K := Dbl))).varRate (.fin 1) = true ∧
    Dbl.le (.fin 0) (EsAlg.eva (EvaOpts.default (K := Dbl))).varRate = true ∧
    Dbl.le (EsAlg.eva (EvaOpts.default (K := Dbl))).varRate (.fin 1) = true := by decide +kernel

/-! ## C45: means stay within the bounds -/

theorem selMean_mem {S : Set ℝ} (hS : Convex ℝ S) (sel : List (Fin n → ℝ)) {mu : Int} (hmu : 1 ≤ mu) (hl : sel.length = mu.toNat) (j : Fin n)
    (h : ∀ x ∈ sel, x j ∈ S) : selMean sel mu j ∈ S := by
  have e : selMean sel mu j = ∑ i : Fin sel.length, (1 / (sel.length : ℝ)) • (sel.get i j) := by
    unfold selMean
    have : (sel.foldl (fun a x => a + x j) (lit 0)) = (sel.map (fun x => x j)).sum := by
      refine (foldl_real (fun x => x j) sel _).trans ?_
      rw [lit_real, Rat.cast_zero, zero_add]
    rw [this, lit_real, ← Finset.smul_sum, Fin.sum_univ_def, smul_eq_mul]
    have e2 : (sel.map (fun x => x j)) = (List.finRange sel.length).map (fun i => sel.get i j) := by
      conv_lhs => rw [← finRange_map_get sel]
      rw [List.map_map]; rfl
    have e3 : (((mu : ℚ)) : ℝ) = (sel.length : ℝ) := by
      rw [hl]
      have : ((mu.toNat : ℤ) : ℝ) = (mu : ℝ) := by exact_mod_cast Int.toNat_of_nonneg (by omega)
      push_cast at this ⊢
      rw [this]
    rw [e2, e3, one_div, inv_mul_eq_div]
  rw [e]
  have hpos : (0 : ℝ) < sel.length := by
    have : 0 < sel.length := by omega
    exact_mod_cast this
  refine hS.sum_mem (fun i _ => by positivity) ?_ (fun i _ => h _ (List.get_mem ..))
  rw [Finset.sum_const, Finset.card_univ, Fintype.card_fin, nsmul_eq_mul]
  field_simp

theorem selected_mem {α : Type} {mu : Int} {order : List Nat} {pop sel : List α} (h : selected mu order pop = .ok sel) : ∀ x ∈ sel, x ∈ pop := by
  have h1 := (selected_ok h).2.2.2
  intro x hx
  have : some x ∈ sel.map some := List.mem_map.2 ⟨x, hx, rfl⟩
  rw [← h1, List.mem_map] at this
  obtain ⟨i, -, hi⟩ := this
  exact List.mem_of_getElem? hi

theorem upd_mem {S : Set ℝ} (hS : Convex ℝ S) {a b r : ℝ} (ha : a ∈ S) (hb : b ∈ S) (h0 : 0 ≤ r) (h1 : r ≤ 1) : upd a b r ∈ S := by
  unfold upd
  rw [lit_real, Rat.cast_one]
  exact hS ha hb (by linarith) h0 (by ring)

/-- **C45.** In exact arithmetic, with `step_size` between 0 and 1, the mean of EVA stays within bounds (any convex sets, such as the
intervals between finite or infinite bounds) in every coordinate, if the initial mean and all individuals are. -/
theorem C45_eva (o : EvaOpts ℝ) (h0 : 0 ≤ o.stepSize) (h1 : o.stepSize ≤ 1) (eps : ℝ) (mu : Int) (hmu : 1 ≤ mu) (S : Fin n → Set ℝ)
    (hS : ∀ j, Convex ℝ (S j)) (s t : Es ℝ n) (hs : ∀ j, s.mean j ∈ S j)
    (h : Updates (.eva o) eps mu (fun pop => ∀ x ∈ pop, ∀ j, x j ∈ S j) s t) (j : Fin n) : t.mean j ∈ S j := by
  induction h with
  | nil => exact hs j
  | @snoc t t' order pop h hp hu ih =>
    obtain ⟨sel, h2, rfl⟩ := update_selected hu
    have h3 := selMean_mem (hS j) sel hmu (selected_ok h2).2.2.1 j (fun x hx => hp x (selected_mem h2 x hx) j)
    have e : (EsAlg.updateWith eps mu t sel (.eva o)).mean j = upd (t.mean j) (selMean sel mu j) o.stepSize := by
      show t.mean j + o.stepSize * (selMean sel mu j - t.mean j) = _
      unfold upd
      rw [lit_real, Rat.cast_one]
      ring
    rw [e]
    exact upd_mem (hS j) ih h3 h0 h1

/-- **C45.** The same for MES with `mom_sigma` not positive. -/
theorem C45_mes_without_momentum (o : MesOpts ℝ) (hm : o.momSigma ≤ 0) (h0 : 0 ≤ o.meanSigma) (h1 : o.meanSigma ≤ 1) (eps : ℝ) (mu : Int)
    (hmu : 1 ≤ mu) (S : Fin n → Set ℝ) (hS : ∀ j, Convex ℝ (S j)) (s t : Es ℝ n) (hs : ∀ j, s.mean j ∈ S j)
    (h : Updates (.mes o) eps mu (fun pop => ∀ x ∈ pop, ∀ j, x j ∈ S j) s t) (j : Fin n) : t.mean j ∈ S j := by
  induction h with
  | nil => exact hs j
  | @snoc t t' order pop h hp hu ih =>
    obtain ⟨sel, h2, rfl⟩ := update_selected hu
    have h3 := selMean_mem (hS j) sel hmu (selected_ok h2).2.2.1 j (fun x hx => hp x (selected_mem h2 x hx) j)
    have e : (EsAlg.updateWith eps mu t sel (.mes o)).mean j = upd (t.mean j) (selMean sel mu j) o.meanSigma := by
      show (mesUpdateWith eps o mu t sel).mean j = _
      unfold mesUpdateWith
      rw [if_neg (by rw [lt_real, lit_real, Rat.cast_zero, decide_eq_true_eq]; exact not_lt.2 hm)]
    rw [e]
    exact upd_mem (hS j) ih h3 h0 h1

/-- `k` updates with a population of a single point. -/
def iterUpdate [Libm] (o : MesOpts Dbl) (x : Fin 1 → Dbl) : Nat → Es Dbl 1 → Es Dbl 1
  | 0, s => s
  | k + 1, s => iterUpdate o x k (mesUpdateWith (.fin 0) o 1 s [x])

theorem iterUpdate_updates [Libm] (o : MesOpts Dbl) (x : Fin 1 → Dbl) : ∀ (k : Nat) (s0 s : Es Dbl 1),
    Updates (.mes o) (.fin 0) 1 (fun pop => ∀ y ∈ pop, y = x) s0 s →
    Updates (.mes o) (.fin 0) 1 (fun pop => ∀ y ∈ pop, y = x) s0 (iterUpdate o x k s) := by
  intro k
  induction k with
  | zero => intro s0 s h; exact h
  | succ k ih => intro s0 s h; exact ih _ _ (h.snoc (order := [0]) (pop := [x]) (by simp) rfl)

/-- **C45 (finding).** With momentum, which is the default of MES, the mean can overshoot: it starts at 0, every individual is at the
upper bound 1, and after 20 updates with the default options the mean is above 1. -/
theorem C45_mes_momentum_overshoots : letI := noLibm; ∃ t : Es Dbl 1,
    Updates (.mes MesOpts.default) (.fin 0) 1 (fun pop => ∀ x ∈ pop, ∀ j, x j = .fin 1) (Es.init (fun _ => .fin 0) (fun _ => .fin 1)) t ∧
    Dbl.lt (.fin 1) (t.mean 0) = true := by
  letI := noLibm
  refine ⟨iterUpdate MesOpts.default (fun _ => .fin 1) 20 (Es.init (fun _ => .fin 0) (fun _ => .fin 1)), ?_, by decide +kernel⟩
  have := iterUpdate_updates MesOpts.default (fun _ => .fin 1) 20 (Es.init (fun _ => .fin 0) (fun _ => .fin 1)) _ .nil
  exact this.mono (fun pop hp x hx j => by rw [hp x hx])

/-- The largest value a parameter may have in the following example, -0.84977335. -/
def exTop : Dbl := .fin (bin64 (-84977335 / 100000000))

/-- **C45 (finding).** In floating-point arithmetic the EVA mean can leave the bounds: here mean and all individuals are at the upper bound (with default options and 11 selected
individuals), and the new mean is above it. -/
theorem C45_eva_rounding : letI := noLibm; ∃ s' : Es Dbl 1,
    updateDistribution (.eva EvaOpts.default) (.fin 0) 11 (Es.init (fun _ => exTop) (fun _ => .fin 1)) (List.range 11) (List.replicate 11 fun _ => exTop) = .ok s' ∧
    Dbl.lt exTop (s'.mean 0) = true := by
  let := noLibm
  exact ⟨_, rfl, by decide +kernel⟩

end Spot
