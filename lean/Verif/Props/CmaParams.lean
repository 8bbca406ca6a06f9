import Verif.Lemmas.CmaSort
import Verif.Spec.Evolution
import Mathlib.Algebra.Order.Chebyshev
import Mathlib.Algebra.BigOperators.Field

/-! # Weights, parameters and ranking of CMA-ES (C50, C51, C52) -/

namespace Spot

/-! ## C50 -/

/-- **C50.** With `mu = lambda / 2` and `lambda ≥ 2` no error is reported, in any arithmetic. -/
theorem C50_no_error {K : Type} [Arith K] (m : CmaWeights) (lambda : Nat) (h : 2 ≤ lambda) :
    ∃ r : List K × K, cmaSetWeights m (lambda / 2) lambda = .ok r ∧ r.1.length = lambda / 2 := by
  unfold cmaSetWeights
  have h1 : ¬ lambda / 2 < 1 := by omega
  have h2 : ¬ lambda < lambda / 2 := by omega
  have h3 : ¬ lambda / 2 = lambda := by omega
  simp only [h1, h2, h3, decide_false, Bool.or_self, Bool.false_and, Bool.false_eq_true, if_false]
  exact ⟨_, rfl, by simp⟩

theorem raw_pos (m : CmaWeights) {mu i : Nat} (h : i < mu) : 0 < (m.raw mu i : ℝ) := by
  cases m with
  | equal => simp [CmaWeights.raw]
  | linear =>
    simp only [CmaWeights.raw, lit_real]
    have : (0 : ℤ) < (mu : ℤ) - i := by omega
    exact_mod_cast this
  | log =>
    simp only [CmaWeights.raw, lit_real, log_real]
    have : ((i : ℝ) + 1) < (mu : ℝ) + 1 := by have : (i : ℝ) < mu := by exact_mod_cast h
                                              linarith
    have := Real.log_lt_log (by positivity) this
    push_cast
    linarith

theorem raw_anti (m : CmaWeights) {mu i j : Nat} (hij : i < j) (h : j < mu) :
    (m.raw mu j : ℝ) ≤ m.raw mu i ∧ (m ≠ .equal → (m.raw mu j : ℝ) < m.raw mu i) := by
  cases m with
  | equal => simp [CmaWeights.raw]
  | linear =>
    simp only [CmaWeights.raw, lit_real]
    have : ((mu : ℤ) - j : ℤ) < (mu : ℤ) - i := by omega
    have h2 : (((mu : ℤ) - j : ℤ) : ℝ) < (((mu : ℤ) - i : ℤ) : ℝ) := by exact_mod_cast this
    have e : ∀ z : ℤ, ((z : ℚ) : ℝ) = (z : ℝ) := fun z => by push_cast; rfl
    rw [e, e]
    exact ⟨h2.le, fun _ => h2⟩
  | log =>
    simp only [CmaWeights.raw, lit_real, log_real]
    have : ((i : ℝ) + 1) < (j : ℝ) + 1 := by have : (i : ℝ) < j := by exact_mod_cast hij
                                             linarith
    have := Real.log_lt_log (by positivity) this
    push_cast
    exact ⟨by linarith, fun _ => by linarith⟩

/-- **C50.** In exact arithmetic, for every way of weighting, the `mu = lambda / 2` weights are positive, sum to one, and do not increase with the
rank (strictly decrease unless they are all equal); `mueff` is the variance effective selection mass, and lies between 1 and `mu`. -/
theorem C50_weights (m : CmaWeights) (lambda : Nat) (h : 2 ≤ lambda) : ∃ (w : List ℝ) (mueff : ℝ),
    cmaSetWeights m (lambda / 2) lambda = .ok (w, mueff) ∧ w.length = lambda / 2 ∧ (∀ x ∈ w, 0 < x) ∧ w.sum = 1 ∧
    w.Pairwise (fun a b => b ≤ a) ∧ (m ≠ .equal → w.Pairwise (fun a b => b < a)) ∧
    mueff = 1 / (w.map (fun x => x ^ 2)).sum ∧ 1 ≤ mueff ∧ mueff ≤ (lambda / 2 : Nat) := by
  obtain ⟨⟨w, mueff⟩, hr, hlen⟩ := C50_no_error (K := ℝ) m lambda h
  refine ⟨w, mueff, hr, hlen, ?_⟩
  unfold cmaSetWeights at hr
  dsimp only at hr
  split at hr
  · cases hr
  rw [Res.ok.injEq, Prod.mk.injEq] at hr
  obtain ⟨hw, hm⟩ := hr
  set mu := lambda / 2 with hmu
  have hmu1 : 1 ≤ mu := by omega
  set r := fun i => (m.raw mu i : ℝ) with hrdef
  have e1 : ((List.range mu).map r).foldl (fun s x => s + x) (lit 0) = ∑ i ∈ Finset.range mu, r i := by
    refine (foldl_real (fun x => x) _ _).trans ?_
    simp [Finset.sum, Multiset.range]
    rfl
  have e2 : ((List.range mu).map r).foldl (fun s x => s + x * x) (lit 0) = ∑ i ∈ Finset.range mu, r i ^ 2 := by
    refine (foldl_real (fun x => x * x) _ _).trans ?_
    rw [List.map_map]
    have : (fun x => x * x) ∘ r = fun i => r i ^ 2 := by funext i; simp [pow_two]
    rw [this]
    simp
    rfl
  have hpos : ∀ i ∈ Finset.range mu, 0 < r i := fun i hi => raw_pos m (Finset.mem_range.1 hi)
  have hne : (Finset.range mu).Nonempty := ⟨0, Finset.mem_range.2 (by omega)⟩
  have hs1 : 0 < ∑ i ∈ Finset.range mu, r i := Finset.sum_pos hpos hne
  have hs2 : 0 < ∑ i ∈ Finset.range mu, r i ^ 2 := Finset.sum_pos (fun i hi => pow_pos (hpos i hi) 2) hne
  rw [e1] at hw
  rw [e1, e2] at hm
  set s1 := ∑ i ∈ Finset.range mu, r i with hs1d
  set s2 := ∑ i ∈ Finset.range mu, r i ^ 2 with hs2d
  have hw' : w = (List.range mu).map (fun i => r i / s1) := by rw [← hw, List.map_map]; rfl
  refine ⟨?_, ?_, ?_, ?_, ?_, ?_, ?_⟩
  · intro x hx
    rw [hw', List.mem_map] at hx
    obtain ⟨i, hi, rfl⟩ := hx
    exact div_pos (raw_pos m (List.mem_range.1 hi)) hs1
  · have : w.sum = ∑ i ∈ Finset.range mu, r i / s1 := by rw [hw']; rfl
    rw [this, ← Finset.sum_div, ← hs1d, div_self hs1.ne']
  · rw [hw', List.pairwise_map]
    refine (List.pairwise_lt_range (n := mu)).imp_of_mem ?_
    intro a b ha hb hab
    exact div_le_div_of_nonneg_right (raw_anti m hab (List.mem_range.1 hb)).1 hs1.le
  · intro hmne
    rw [hw', List.pairwise_map]
    refine (List.pairwise_lt_range (n := mu)).imp_of_mem ?_
    intro a b ha hb hab
    exact div_lt_div_of_pos_right ((raw_anti m hab (List.mem_range.1 hb)).2 hmne) hs1
  · have : (w.map (fun x => x ^ 2)).sum = ∑ i ∈ Finset.range mu, (r i / s1) ^ 2 := by rw [hw', List.map_map]; rfl
    rw [this, ← hm]
    have : ∑ i ∈ Finset.range mu, (r i / s1) ^ 2 = s2 / s1 ^ 2 := by
      rw [hs2d, Finset.sum_div]
      exact Finset.sum_congr rfl fun i _ => div_pow _ _ _
    rw [this, one_div, inv_div]
    ring
  · rw [← hm, le_div_iff₀ hs2, one_mul, ← pow_two]
    exact Finset.sum_sq_le_sq_sum_of_nonneg (fun i hi => (hpos i hi).le)
  · rw [← hm, div_le_iff₀ hs2, ← pow_two]
    have := sq_sum_le_card_mul_sum_sq (s := Finset.range mu) (f := r)
    rw [Finset.card_range] at this
    exact this

/-- **C50.** Exact arithmetic: the weights are rejected exactly if `mu` is 0, larger than `lambda`, or equal to `lambda` with equal weights. -/
theorem C50_rejected (m : CmaWeights) (mu lambda : Nat) :
    (cmaSetWeights m mu lambda : Res (List ℝ × ℝ)) = .err ↔ mu = 0 ∨ lambda < mu ∨ (mu = lambda ∧ (m = .equal ∨ mu = 1)) := by
  unfold cmaSetWeights
  dsimp only
  set s1 := ((List.range mu).map (m.raw mu : Nat → ℝ)).foldl (fun s x => s + x) (lit 0) with hs1
  have e1 : s1 = ∑ i ∈ Finset.range mu, (m.raw mu i : ℝ) := by
    refine (foldl_real (fun x => x) _ _).trans ?_
    simp [Finset.sum, Multiset.range]
    rfl
  have key : 1 ≤ mu → (Arith.eq ((((List.range mu).map (m.raw mu : Nat → ℝ)).map fun x => x / s1).getD 0 (lit 0))
      ((((List.range mu).map (m.raw mu : Nat → ℝ)).map fun x => x / s1).getD (mu - 1) (lit 0)) = true ↔ m = .equal ∨ mu = 1) := by
    intro hmu
    have hpos : ∀ i ∈ Finset.range mu, 0 < (m.raw mu i : ℝ) := fun i hi => raw_pos m (Finset.mem_range.1 hi)
    have hs : 0 < s1 := by rw [e1]; exact Finset.sum_pos hpos ⟨0, Finset.mem_range.2 (by omega)⟩
    have g : ∀ k < mu, (((List.range mu).map (m.raw mu : Nat → ℝ)).map fun x => x / s1).getD k (lit 0) = m.raw mu k / s1 := by
      intro k hk
      rw [List.getD_eq_getElem?_getD]
      simp [hk]
    rw [g 0 (by omega), g (mu - 1) (by omega), eq_real, decide_eq_true_eq, div_left_inj' hs.ne']
    constructor
    · intro h
      by_contra hc
      push Not at hc
      have := (raw_anti m (mu := mu) (i := 0) (j := mu - 1) (by omega) (by omega)).2 hc.1
      linarith
    · rintro (rfl | rfl)
      · rfl
      · rfl
  by_cases h0 : mu = 0
  · simp [h0]
  · have := key (by omega)
    by_cases h1 : lambda < mu
    · simp [h1]
    · by_cases h2 : mu = lambda
      · by_cases h3 : m = .equal ∨ mu = 1
        · rw [this.mpr h3]
          rw [if_pos (by simp [h2])]; exact ⟨fun _ => Or.inr (Or.inr ⟨h2, h3⟩), fun _ => rfl⟩
        · rw [Bool.eq_false_iff.mpr (fun h => h3 (this.mp h))]
          simp only [Bool.and_false, Bool.or_false]
          simp [h0, h1, h3]
      · simp [h0, h1, h2]

/-- **C50.** What the weights are: in proportion to `log( mu + 1 ) - log( rank + 1 )`. -/
theorem C50_log_weights (lambda : Nat) (w : List ℝ) (mueff : ℝ) (hw : cmaSetWeights .log (lambda / 2) lambda = .ok (w, mueff))
    (i j : Nat) (hi : i < lambda / 2) (hj : j < lambda / 2) :
    w.getD i 0 * (Real.log ((lambda / 2 : Nat) + 1) - Real.log (j + 1)) = w.getD j 0 * (Real.log ((lambda / 2 : Nat) + 1) - Real.log (i + 1)) := by
  unfold cmaSetWeights at hw
  dsimp only at hw
  split at hw
  · cases hw
  rw [Res.ok.injEq, Prod.mk.injEq] at hw
  obtain ⟨hw, -⟩ := hw
  rw [← hw]
  have e : ∀ (s : ℝ) (k : Nat), k < lambda / 2 → (((List.range (lambda / 2)).map (CmaWeights.log.raw (lambda / 2))).map (fun x : ℝ => x / s)).getD k 0 =
      (Real.log ((lambda / 2 : Nat) + 1) - Real.log (k + 1)) / s := by
    intro s k hk
    rw [List.getD_eq_getElem?_getD, List.getElem?_eq_getElem (by simpa using hk)]
    simp [CmaWeights.raw]
  rw [e _ i hi, e _ j hj]
  ring

/-! ## C51 -/

/-- **C51.** For every dimension `n ≥ 1`, every number of individuals asked for (less than 2: the default) and every `update_eigen_modulo`,
the strategy parameters (exact arithmetic) are in their range. -/
theorem C51_parameters (n : Nat) (hn : 1 ≤ n) (opt : Int) (modulo : ℝ) (p : CmaPar ℝ) (h : CmaPar.make ℝ n opt modulo = .ok p) :
    2 ≤ p.lambda ∧ (2 ≤ opt → (p.lambda : Int) = opt) ∧ p.mu = p.lambda / 2 ∧ p.weights.length = p.mu ∧ (∀ x ∈ p.weights, 0 < x) ∧ p.weights.sum = 1 ∧
    1 ≤ p.mueff ∧ p.mueff ≤ p.mu ∧ p.mucov = p.mueff ∧ 0 < p.cs ∧ p.cs < 1 ∧ 0 < p.ccumcov ∧ p.ccumcov < 1 ∧ 0 < p.ccov ∧ p.ccov < 1 ∧
    0 < p.damps ∧ p.cs < p.damps ∧ 0 ≤ p.modulo ∧ 0 < p.chiN ∧ p.diagonalCov = 0 := by
  unfold CmaPar.make at h
  rw [Res.bind_eq_ok] at h
  obtain ⟨lambda, hl, h⟩ := h
  rw [Res.bind_eq_ok] at h
  obtain ⟨⟨w, mueff⟩, hw, h⟩ := h
  rw [Res.ok.injEq] at h
  have hn' : (1 : ℝ) ≤ n := by exact_mod_cast hn
  have hl2 : 2 ≤ lambda ∧ (2 ≤ opt → (lambda : Int) = opt) := by
    unfold cmaLambda at hl
    split at hl
    · rename_i ho
      split at hl
      · rename_i z hz
        have hz0 : 0 ≤ z := by
          have hlog : (0 : ℝ) ≤ (lit 3 : ℝ) * Arith.log (lit (n : ℚ) : ℝ) := by
            simp only [lit_real, log_real]
            have : (0 : ℝ) ≤ Real.log ((n : ℚ) : ℝ) := Real.log_nonneg (by exact_mod_cast hn)
            push_cast
            push_cast at this
            positivity
          simp only [Arith.trunc, hlog, if_true] at hz
          split at hz
          · cases hz; exact Int.floor_nonneg.2 hlog
          · cases hz
        rw [Res.ok.injEq] at hl
        omega
      · cases hl
    · rw [Res.ok.injEq] at hl
      omega
  obtain ⟨w', mueff', hw', h1, h2, h3, h4, h5, h6, h7, h8⟩ := C50_weights .log lambda hl2.1
  rw [hw, Res.ok.injEq, Prod.mk.injEq] at hw'
  obtain ⟨rfl, rfl⟩ := hw'
  have hcs : 0 < cmaCs n mueff ∧ cmaCs n mueff < 1 := by
    unfold cmaCs
    simp only [lit_real]
    push_cast
    refine ⟨by positivity, ?_⟩
    rw [div_lt_one (by positivity)]
    linarith
  have hcc : 0 < cmaCcumcov ℝ n ∧ cmaCcumcov ℝ n < 1 := by
    unfold cmaCcumcov
    simp only [lit_real]
    push_cast
    refine ⟨by positivity, ?_⟩
    rw [div_lt_one (by positivity)]
    linarith
  have hccov : 0 < cmaCcov n mueff ∧ cmaCcov n mueff < 1 := by
    unfold cmaCcov
    simp only [lit_real, lt_real, decide_eq_true_eq]
    push_cast
    set t1 := (2 : ℝ) / ((n + 7071 / 5000) * (n + 7071 / 5000)) with ht1
    set t2 := (2 * mueff - 1) / ((n + 2) * (n + 2) + mueff) with ht2
    have a1 : 0 < t1 := by positivity
    have a2 : t1 < 1 := by
      rw [ht1, div_lt_one (by positivity)]
      nlinarith
    have a3 : 0 < t2 := by
      refine div_pos (by linarith) (by positivity)
    have a4 : 0 < 1 / mueff := by positivity
    have a5 : 1 / mueff ≤ 1 := by rw [div_le_one (by linarith)]; exact h7
    set q := 1 / mueff
    have key : ∀ t : ℝ, 0 < t → t ≤ 1 → 0 < q * t1 + (1 - q) * t ∧ q * t1 + (1 - q) * t < 1 := by
      intro t ht htt
      have b1 : 0 < q * t1 := mul_pos a4 a1
      have b2 : 0 ≤ (1 - q) * t := mul_nonneg (by linarith) ht.le
      have b3 : q * t1 < q * 1 := mul_lt_mul_of_pos_left a2 a4
      have b4 : (1 - q) * t ≤ (1 - q) * 1 := mul_le_mul_of_nonneg_left htt (by linarith)
      exact ⟨by linarith, by linarith⟩
    split
    · exact key 1 one_pos le_rfl
    · exact key t2 a3 (by linarith)
  have hd : cmaCs n mueff < cmaDamps n lambda mueff (cmaCs n mueff) := by
    unfold cmaDamps
    simp only [lit_real, max_real, sqrt_real]
    push_cast
    have a1 : (0 : ℝ) ≤ max 0 (Real.sqrt ((mueff - 1) / (n + 1)) - 1) := le_max_left _ _
    have a2 : (3 / 10 : ℝ) ≤ max (3 / 10) (1 - n / (1 / 10 ^ 6 + Arith.min (Arith.ceil (cmaMaxFunEvals ℝ n / lambda)) (cmaMaxFunEvals ℝ n / lambda))) := le_max_left _ _
    set A := max 0 (Real.sqrt ((mueff - 1) / (n + 1)) - 1)
    set M := max (3 / 10 : ℝ) (1 - n / (1 / 10 ^ 6 + Arith.min (Arith.ceil (cmaMaxFunEvals ℝ n / lambda)) (cmaMaxFunEvals ℝ n / lambda)))
    have : 0 < (1 * (1 + 2 * A)) * M := by positivity
    linarith
  have hchi : 0 < cmaChiN ℝ n := by
    unfold cmaChiN
    simp only [lit_real, sqrt_real]
    push_cast
    refine mul_pos (Real.sqrt_pos.2 (by linarith)) ?_
    have a1 : (1 : ℝ) / (4 * n) < 1 := by rw [div_lt_one (by positivity)]; linarith
    have a2 : (0 : ℝ) < 1 / (21 * n * n) := by positivity
    linarith
  subst h
  refine ⟨hl2.1, hl2.2, rfl, h1, h2, h3, h7, h8, rfl, hcs.1, hcs.2, hcc.1, hcc.2, hccov.1, hccov.2, hcs.1.trans hd, hd, ?_, hchi, rfl⟩
  dsimp only
  simp only [lit_real, lt_real, decide_eq_true_eq]
  push_cast
  rw [mul_one]
  split
  · have := hccov.1; positivity
  · linarith

/-- **C51.** There always are such parameters, in any arithmetic, if the number of individuals is given; and in exact arithmetic by default, as long
as the default number fits an `int`. -/
theorem C51_defined {K : Type} [Arith K] (n : Nat) (opt : Int) (modulo : K) (h : 2 ≤ opt) : ∃ p, CmaPar.make K n opt modulo = .ok p ∧ (p.lambda : Int) = opt := by
  obtain ⟨w, hw, -⟩ := C50_no_error (K := K) .log opt.toNat (by omega)
  unfold CmaPar.make cmaLambda
  rw [if_neg (by omega)]
  simp only [Res.ok_bind, hw]
  exact ⟨_, rfl, by dsimp only; omega⟩

theorem C51_default_lambda (n : Nat) (opt : Int) (modulo : ℝ) (h : opt < 2) (hn : 1 ≤ n) (hb : 3 * Real.log n < 2 ^ 31) :
    ∃ p, CmaPar.make ℝ n opt modulo = .ok p ∧ (p.lambda : Int) = 4 + ⌊3 * Real.log n⌋ := by
  have hn' : (1 : ℝ) ≤ n := by exact_mod_cast hn
  have h0 : 0 ≤ 3 * Real.log n := by have := Real.log_nonneg hn'; positivity
  have hf : fitsInt ⌊3 * Real.log n⌋ := by
    have h1 := Int.floor_nonneg.2 h0
    have h2 : ⌊3 * Real.log n⌋ < 2147483648 := by
      rw [Int.floor_lt]
      push_cast
      linarith
    exact ⟨by omega, by omega⟩
  have hl : cmaLambda ℝ opt n = .ok (4 + ⌊3 * Real.log n⌋).toNat := by
    unfold cmaLambda
    rw [if_pos h]
    have : (Arith.trunc (lit 3 * Arith.log (lit (n : ℚ) : ℝ)) : Option Int) = some ⌊3 * Real.log n⌋ := by
      simp only [lit_real, log_real, Arith.trunc]
      push_cast
      rw [if_pos h0, if_pos hf]
    rw [this]
  have h1 := Int.floor_nonneg.2 h0
  obtain ⟨w, hw, -⟩ := C50_no_error (K := ℝ) .log (4 + ⌊3 * Real.log n⌋).toNat (by omega)
  unfold CmaPar.make
  rw [hl]
  simp only [Res.ok_bind, hw]
  exact ⟨_, rfl, by dsimp only; omega⟩

/-- For instance ten individuals in dimension three. -/
example : ∃ p, CmaPar.make ℝ 3 10 (-1) = .ok p ∧ (p.lambda : Int) = 10 := C51_defined 3 10 (-1) (by norm_num)

/-! ## C52 -/

/-- **C52.** `Sorted_index` gives every individual a rank, whatever the index vector contained before: the result is a permutation of
`0 .. lambda - 1`, and no individual has a smaller fitness than one ranked before it. This also holds with NaN among the fitnesses, which compare false. -/
theorem C52_ranking (fs : List Dbl) (idx : List Nat) (h : idx.length = fs.length) :
    (sortedIndex fs idx fs.length).Perm (List.range fs.length) ∧
    ∀ (i j a b : Nat) (x y : Dbl), i < j → (sortedIndex fs idx fs.length)[i]? = some a → (sortedIndex fs idx fs.length)[j]? = some b →
      fs[a]? = some x → fs[b]? = some y → Dbl.lt y x = false := by
  obtain ⟨h1, h2⟩ := sortedIndex_spec fs idx fs.length h
  refine ⟨h1, fun i j a b x y hij ha hb hx hy => ?_⟩
  obtain ⟨hi, rfl⟩ := List.getElem?_eq_some_iff.1 ha
  obtain ⟨hj, rfl⟩ := List.getElem?_eq_some_iff.1 hb
  have := List.pairwise_iff_getElem.1 h2 i j hi hj hij
  simpa only [fitAt, List.getD_eq_getElem?_getD, hx, hy, Option.getD_some] using this

/-- **C52.** The first `mu` ranks are a selection of the `mu` best individuals (NaN compares false). -/
theorem C52_selection (fs : List Dbl) (idx : List Nat) (h : idx.length = fs.length) (mu : Nat) (hmu : mu ≤ fs.length) :
    Spec.IsSelection true fs mu ((sortedIndex fs idx fs.length).take mu) := by
  obtain ⟨h1, h2⟩ := sortedIndex_spec fs idx fs.length h
  have hl : (sortedIndex fs idx fs.length).length = fs.length := by rw [h1.length_eq, List.length_range]
  refine ⟨by rw [List.length_take, hl]; omega, ?_, ?_, ?_⟩
  · exact (List.take_sublist _ _).nodup ((h1.nodup_iff).2 List.nodup_range)
  · intro i hi
    exact List.mem_range.1 (h1.mem_iff.1 (List.mem_of_mem_take hi))
  · intro i hi j hj x y hx hy
    simp only [if_true]
    have hjm : j ∈ sortedIndex fs idx fs.length := h1.mem_iff.2 (List.mem_range.2 (List.getElem?_eq_some_iff.1 hy).1)
    rw [← List.take_append_drop mu (sortedIndex fs idx fs.length)] at hjm h2
    have hjd : j ∈ (sortedIndex fs idx fs.length).drop mu := by
      rcases List.mem_append.1 hjm with hh | hh
      · exact absurd hh hj
      · exact hh
    have := (List.pairwise_append.1 h2).2.2 i hi j hjd
    simpa only [fitAt, List.getD_eq_getElem?_getD, hx, hy, Option.getD_some] using this

theorem insRev_nan (f : Nat → Dbl) (i : Nat) (h : f i = .nan) : ∀ l, insRev f i l = l ++ [i]
  | [] => rfl
  | k :: ks => by
    unfold insRev
    have : Dbl.lt (f k) (f i) = false := by rw [h]; cases f k <;> rfl
    rw [this, insRev_nan f i h ks]
    simp

theorem sortOuter_last (f : Nat → Dbl) : ∀ (k i : Nat) (idx : List Nat), sortOuter f (k + 1) i idx = sortInsert f (i + k) (i + k) (sortOuter f k i idx)
  | 0, i, idx => rfl
  | k + 1, i, idx => by
    rw [sortOuter, sortOuter_last f k (i + 1), sortOuter, show i + 1 + k = i + (k + 1) by omega]

theorem sortInsert_nan (f : Nat → Dbl) (i : Nat) (h : f i = .nan) : ∀ (j : Nat) (idx : List Nat), j < idx.length → (sortInsert f i j idx).head? = some i
  | 0, idx, hj => by cases idx with
    | nil => simp at hj
    | cons a l => rfl
  | j + 1, idx, hj => by
    unfold sortInsert
    have : Dbl.lt (f (idx.getD j 0)) (f i) = false := by rw [h]; cases f (idx.getD j 0) <;> rfl
    rw [this]
    exact sortInsert_nan f i h j _ (by rw [List.length_set]; omega)

theorem sortInsert_length (f : Nat → Dbl) (i : Nat) : ∀ (j : Nat) (idx : List Nat), (sortInsert f i j idx).length = idx.length
  | 0, idx => by simp [sortInsert]
  | j + 1, idx => by
    unfold sortInsert
    split
    · simp
    · rw [sortInsert_length f i j]; simp

theorem sortOuter_length (f : Nat → Dbl) : ∀ (k i : Nat) (idx : List Nat), (sortOuter f k i idx).length = idx.length
  | 0, i, idx => rfl
  | k + 1, i, idx => by rw [sortOuter, sortOuter_length f k, sortInsert_length]

/-- **C52 (finding).** If the fitness of the last individual is NaN, it is ranked first: it gets the largest weight in the new mean. -/
theorem C52_nan_ranks_first (fs : List Dbl) (idx : List Nat) (h : idx.length = (fs ++ [Dbl.nan]).length) :
    (sortedIndex (fs ++ [Dbl.nan]) idx (fs ++ [Dbl.nan]).length).head? = some fs.length := by
  have hf : fitAt (fs ++ [Dbl.nan]) fs.length = .nan := by simp [fitAt, List.getD_eq_getElem?_getD]
  unfold sortedIndex
  rw [List.length_append, List.length_singleton, Nat.add_sub_cancel]
  rw [List.length_append, List.length_singleton] at h
  cases hk : fs.length with
  | zero =>
    cases idx with
    | nil => simp [hk] at h
    | cons a l => simp [sortOuter]
  | succ k =>
    rw [sortOuter_last, show 1 + k = k + 1 by omega]
    rw [hk] at hf
    exact sortInsert_nan _ _ hf _ _ (by rw [sortOuter_length, List.length_set]; omega)

example : sortedIndex [.fin 3, .fin 1, .fin 2, .fin 1] [0, 1, 2, 3] 4 = [3, 1, 2, 0] := by decide +kernel
example : sortedIndex [.fin 3, .fin 1, .nan] [0, 0, 0] 3 = [2, 1, 0] := by decide +kernel

end Spot
