import Verif.Lemmas.Float
import Verif.Lemmas.CmaNan
import Verif.Lemmas.Cma
import Verif.Lemmas.CmaSort
import Verif.Props.Evolution

/-! # NaN in the covariance matrix (C83)

Findings. The comparisons with NaN are false, so that the search for a small element (spot/cma_optimizer.cpp:477-483) in `QLalgo2` runs past
the last element: with `m == n`, `d[m]`, `e[m + 1]` and `V[k][m]` are used, which are outside the arrays. -/

namespace Spot

variable [Libm] {n : Nat}

/-- **C83 (finding).** If one of the elements of the last row of the matrix before the diagonal is NaN, `Eigen` goes outside the arrays, whatever the
other elements are. -/
theorem C83_nan_matrix (C : Fin n → Fin n → Dbl) (l k : Fin n) (hl : (l : Nat) + 1 = n) (hk : k < l) (h : C l k = .nan) (fuel : Nat) :
    eigenFin n (fuel + 1) C = some .ub := by
  have hn : 2 ≤ n := by have : (k : Nat) < l := hk; omega
  unfold eigenFin eigen
  rw [ql_nan hn]
  refine householder_nan _ (k := (k : Nat)) (by have : (k : Nat) < l := hk; omega) ?_
  have hkl : (k : Nat) < l := hk
  have e : n - 1 = (l : Nat) := by omega
  dsimp only
  rw [if_pos (show (k : Nat) ≤ n - 1 by omega), e]
  unfold asRows
  rw [dif_pos ⟨l.2, k.2⟩]
  exact h

variable {G : GaussSrc Dbl}

/-- The elements of the covariance matrix with NaN in the evolution path, or in a ranked individual. -/
theorem newC_nan (p : CmaPar Dbl) (s : Cma G n) (hs : Bool) (i j : Fin n) (h : s.pc i = .nan ∨ s.pc j = .nan) : s.newC p hs i j = .nan := by
  unfold Cma.newC
  refine foldl_nan _ _ _ (.inl ?_)
  rcases h with h | h <;> rw [h] <;> simp

theorem update_nan (p : CmaPar Dbl) (hd : p.diagonalCov = 0) (hc : Arith.eq p.ccov (lit 0) = false) (hn : 2 ≤ n) (mn : Bool) (s t : Cma G n) (fs : List Dbl)
    (hg : 1 ≤ s.gen) (i : Fin n) (hm : s.mean i = .nan ∨ ∀ fs : List Dbl, fs.length = p.lambda → (s.rank p fs).newMean p i = .nan) (h : s.update p mn fs = (t, .ok ())) :
    (t.eigenUptodate = false ∧ t.gen = s.gen ∧ t.genOfEigen = s.genOfEigen) ∧ (t.callsEigen p = true → ∀ fuel tr b, t.sampleRun (fuel + 1) tr b p = some .ub) := by
  unfold Cma.update Cma.updateDistribution at h
  set fs' := if mn then fs else fs.map Dbl.neg
  by_cases h3 : s.state = 3
  · rw [if_pos h3] at h; cases h
  rw [if_neg h3] at h
  by_cases hl : fs'.length ≠ p.lambda
  · rw [if_pos hl] at h; cases h
  rw [if_neg hl] at h
  by_cases h1 : s.state = 1
  swap
  · rw [if_neg h1] at h; cases h
  rw [if_pos h1] at h
  simp only [Prod.mk.injEq, and_true] at h
  push Not at hl
  have hpc' : ((s.rank p fs').paths p).pc i = .nan := by
    unfold Cma.paths Cma.newPc Cma.bdz Cma.move
    dsimp only
    rcases hm with hm | hm
    · rw [show (s.rank p fs').mean i = .nan from hm]
      simp
    · rw [hm fs' hl]
      simp
  have hA : t = { (s.rank p fs').paths p with
      eigenUptodate := false
      C := fun a b => if (if ((s.rank p fs').paths p).flgdiag p then b = a else b ≤ a) then ((s.rank p fs').paths p).newC p (((s.rank p fs').paths p).hsig p) a b else ((s.rank p fs').paths p).C a b
      sigma := t.sigma, state := 3 } := by
    rw [← h]
    unfold Cma.adapt Cma.adaptC
    simp only [hc]
    rfl
  refine ⟨by rw [hA]; exact ⟨rfl, rfl, rfl⟩, fun hcall fuel tr b => ?_⟩
  have hC : ∀ a b : Fin n, b ≤ a → (a = i ∨ b = i) → t.C a b = .nan := by
    intro a b hab hi
    rw [hA]
    have hf : ((s.rank p fs').paths p).flgdiag p = false := by
      unfold Cma.flgdiag
      rw [hd]
      show (decide (0 = 1) || decide (s.gen ≤ 0)) = false
      simp; omega
    dsimp only
    rw [hf]
    simp only [Bool.false_eq_true, if_false]
    rw [if_pos hab]
    refine newC_nan p _ _ a b ?_
    rcases hi with rfl | rfl
    · exact .inl hpc'
    · exact .inr hpc'
  have hub : eigenFin n (fuel + 1) t.C = some .ub := by
    by_cases hi : (i : Nat) + 1 = n
    · exact C83_nan_matrix t.C i ⟨0, by omega⟩ hi (show 0 < (i : Nat) by omega) (hC _ _ (show 0 ≤ (i : Nat) by omega) (.inl rfl)) fuel
    · have := i.2
      exact C83_nan_matrix t.C ⟨n - 1, by omega⟩ i (show n - 1 + 1 = n by omega) (show (i : Nat) < n - 1 by omega) (hC _ _ (show (i : Nat) ≤ n - 1 by omega) (.inr rfl)) fuel
  unfold Cma.sampleRun
  rw [if_pos hcall, hub]

/-- **C83 (finding).** If an element of the mean is NaN when the distribution is updated, the next eigenvalue decomposition goes outside the arrays. -/
theorem C83_nan_mean (p : CmaPar Dbl) (hd : p.diagonalCov = 0) (hc : Arith.eq p.ccov (lit 0) = false) (hn : 2 ≤ n) (mn : Bool) (s t : Cma G n) (fs : List Dbl)
    (hg : 1 ≤ s.gen) (i : Fin n) (hm : s.mean i = .nan) (h : s.update p mn fs = (t, .ok ())) :
    t.callsEigen p = true → ∀ fuel tr b, t.sampleRun (fuel + 1) tr b p = some .ub :=
  (update_nan p hd hc hn mn s t fs hg i (.inl hm) h).2

/-! ## All standard deviations zero -/

theorem sampleLoop_allnan (s : Cma G n) (hD : ∀ i, s.sigma * s.D i = .nan) : ∀ (k : Nat) (e : G.St), ∀ x ∈ (s.sampleLoop true k e).1, ∀ i, x i = .nan
  | 0, _, x, hx => by cases hx
  | k + 1, e, x, hx => by
    rw [Cma.sampleLoop, List.mem_cons] at hx
    rcases hx with rfl | hx
    · intro i
      show s.mean i + s.sigma * s.D i * _ = .nan
      rw [hD]; simp
    · exact sampleLoop_allnan s hD k _ x hx

theorem feasible_nan (b : Bounds Dbl n) (x : Fin n → Dbl) (h : ∀ i, x i = .nan) : b.feasible x = true := by
  unfold Bounds.feasible
  rw [List.all_eq_true]
  intro i _
  rw [h i]
  simp

theorem boundedLoop_nan (b : Bounds Dbl n) : ∀ (ks : List Nat) (s : Cma G n), (∀ k ∈ ks, ∀ i, (s.pop.getD k fun _ => lit 0) i = .nan) →
    (Cma.boundedLoop id b ks s).1 = s
  | [], _, _ => rfl
  | k :: ks, s, h => by
    have h1 : s.bounded id b k = (s, s.pop.getD k fun _ => lit 0) := by
      unfold Cma.bounded Cma.attempts
      rw [id, feasible_nan b _ (h k (List.mem_cons_self ..))]
      rfl
    rw [Cma.boundedLoop, h1]
    exact boundedLoop_nan b ks s fun j hj => h j (List.mem_cons_of_mem _ hj)

theorem start_nan (p : CmaPar Dbl) (hd : p.diagonalCov = 0) (hc : Arith.eq p.ccov (lit 0) = false) (hmu : 1 ≤ p.mu) (hml : p.mu ≤ p.lambda)
    (hmod : Arith.lt (lit 1) (lit 0 + p.modulo) = false) (hn : 2 ≤ n) (mn : Bool) (m std : Fin n → Dbl) (e : G.St) (b : Bounds Dbl n) (fs : List Dbl) (hfs : fs.length = p.lambda)
    (hD : ∀ i, (Cma.init p m std e : Cma G n).sigma * (Cma.init p m std e : Cma G n).D i = .nan) :
    ∃ s xs t, (∀ fuel, (Cma.init p m std e : Cma G n).sampleRun fuel id b p = some (.ok (s, xs))) ∧ (∀ x ∈ s.pop, ∀ i, x i = .nan) ∧
      s.update p mn fs = (t, .ok ()) ∧ ∀ fuel, t.sampleRun (fuel + 1) id b p = some .ub := by
  set s0 : Cma G n := Cma.init p m std e with hs0
  have hprep : ∀ eig, s0.prepare eig p = s0 := fun eig => rfl
  set eig0 : Eig Dbl n := fun _ => (fun _ => lit 0, fun _ _ => lit 0) with he0
  have hpopn : ∀ x ∈ (s0.samplePopulation eig0 p).pop, ∀ i, x i = .nan := by
    have hfl : s0.flgdiag p = true := by unfold Cma.flgdiag; rw [hd]; rfl
    show ∀ x ∈ (s0.sampleLoop (s0.flgdiag p) p.lambda s0.rng).1, _
    rw [hfl]
    exact sampleLoop_allnan s0 hD _ _
  have hlen : (s0.samplePopulation eig0 p).pop.length = p.lambda := Cma.sampleLoop_length _ _ _ _
  have hs : (s0.sample id b eig0 p).1 = s0.samplePopulation eig0 p := by
    refine boundedLoop_nan b _ _ fun k hk i => ?_
    have hk' : k < (s0.samplePopulation eig0 p).pop.length := by rw [hlen]; exact List.mem_range.1 hk
    rw [List.getD_eq_getElem?_getD, List.getElem?_eq_getElem hk', Option.getD_some]
    exact hpopn _ (List.getElem_mem hk') i
  set s1 := s0.samplePopulation eig0 p with hs1
  have hst : s1.state = 1 := rfl
  have hix : s1.index.length = p.lambda := List.length_range
  have hmean : ∀ (i : Fin n) (fs : List Dbl), fs.length = p.lambda → (s1.rank p fs).newMean p i = .nan := by
    intro i fs' _
    unfold Cma.newMean
    refine sumLoop_nan (k := 0) hmu ?_
    have hp := (sortedIndex_spec fs' s1.index p.lambda hix).1
    have h0 : 0 < (sortedIndex fs' s1.index p.lambda).length := by rw [hp.length_eq, List.length_range]; omega
    have hk : (sortedIndex fs' s1.index p.lambda)[0] < p.lambda := List.mem_range.1 (hp.mem_iff.1 (List.getElem_mem h0))
    have hr : (s1.rank p fs').ranked 0 i = .nan := by
      show (s1.pop.getD ((sortedIndex fs' s1.index p.lambda).getD 0 0) fun _ => lit 0) i = .nan
      rw [show (sortedIndex fs' s1.index p.lambda).getD 0 0 = _ from List.getD_eq_getElem?_getD, List.getElem?_eq_getElem h0, Option.getD_some]
      rw [List.getD_eq_getElem?_getD, List.getElem?_eq_getElem (by rw [hlen]; exact hk), Option.getD_some]
      exact hpopn _ (List.getElem_mem _) i
    rw [hr]
    simp
  rcases s1.update_cases p mn fs with ⟨-, -, hu⟩ | ⟨hu, -⟩
  swap
  · exact absurd ⟨hst, hfs⟩ hu
  have hg : s1.gen = 1 := rfl
  obtain ⟨⟨h1, h2, h3⟩, h4⟩ := update_nan p hd hc hn mn s1 _ fs (by rw [hg]) ⟨0, by omega⟩ (.inr (hmean _)) hu
  refine ⟨s1, (s0.sample id b eig0 p).2, _, fun fuel => ?_, hpopn, hu, fun fuel => h4 ?_ fuel id b⟩
  · unfold Cma.sampleRun
    rw [if_neg (show ¬ s0.callsEigen p = true by unfold Cma.callsEigen; rw [show s0.eigenUptodate = true from rfl]; simp), ← hs]
  · have hf : (Cma.adapt p (Cma.rank p s1 (if mn = true then fs else List.map Dbl.neg fs))).flgdiag p = false := by
      unfold Cma.flgdiag
      rw [hd, h2, hg]
      rfl
    unfold Cma.callsEigen
    rw [h1, hf, h2, h3, hg]
    rw [show s1.genOfEigen = 0 from rfl, Nat.cast_zero, Nat.cast_one, hmod]
    rfl

theorem trace_zero (std : Fin n → Dbl) (h : ∀ i, std i * std i = .fin 0) : (sumFin fun i => std i * std i) = .fin 0 := by
  have h0 : (lit 0 : Dbl) = .fin 0 := Dbl.ofQ_zero
  have ha : (.fin 0 : Dbl) + .fin 0 = .fin 0 := by show Dbl.add _ _ = _; decide +kernel
  have : ∀ l : List (Fin n), l.foldl (fun (a : Dbl) i => a + std i * std i) (.fin 0) = .fin 0 := by
    intro l
    induction l with
    | nil => rfl
    | cons x l ih => rw [List.foldl_cons, h, ha]; exact ih
  unfold sumFin
  rw [h0]
  exact this _

theorem dim_div_zero (hn : 1 ≤ n) : (lit (n : ℚ) : Dbl) / .fin 0 = .pinf := by
  have h1 : 0 < bin64 (n : ℚ) := by
    have : bin64 1 ≤ bin64 (n : ℚ) := bin64_mono (by exact_mod_cast hn)
    have h11 : bin64 1 = 1 := by decide +kernel
    rw [h11] at this
    exact lt_of_lt_of_le one_pos this
  show Dbl.div (Dbl.ofQ n) (.fin 0) = .pinf
  unfold Dbl.ofQ
  dsimp only
  split
  · rfl
  · rw [if_neg (show ¬ bin64 (n : ℚ) < -Dbl.maxQ from ?_)]
    · show (if (0 : ℚ) = 0 then Dbl.infSign (bin64 n) else Dbl.ofQ (bin64 n / 0)) = _
      rw [if_pos rfl, Dbl.infSign]
      rw [if_pos h1]
    · have : (0 : ℚ) ≤ Dbl.maxQ := by decide +kernel
      intro h
      linarith

/-- **C83 (finding).** If all standard deviations of the objective are 0, which `is_valid` of its parameters permits, the first population consists of NaN,
and after the first update the eigenvalue decomposition goes outside the arrays (`sqrt` of infinity is infinity, as IEEE 754 defines it). -/
theorem C83_zero_std (hsq : Libm.sqrt .pinf = .pinf) (p : CmaPar Dbl) (hd : p.diagonalCov = 0) (hc : Arith.eq p.ccov (lit 0) = false) (hmu : 1 ≤ p.mu) (hml : p.mu ≤ p.lambda)
    (hmod : Arith.lt (lit 1) (lit 0 + p.modulo) = false) (hn : 2 ≤ n) (mn : Bool) (m : Fin n → Dbl) (e : G.St) (b : Bounds Dbl n) (fs : List Dbl) (hfs : fs.length = p.lambda) :
    ∃ s xs t, (∀ fuel, (Cma.init p m (fun _ => .fin 0) e : Cma G n).sampleRun fuel id b p = some (.ok (s, xs))) ∧ (∀ x ∈ s.pop, ∀ i, x i = .nan) ∧
      s.update p mn fs = (t, .ok ()) ∧ ∀ fuel, t.sampleRun (fuel + 1) id b p = some .ub := by
  refine start_nan p hd hc hmu hml hmod hn mn m _ e b fs hfs fun i => ?_
  have htr := trace_zero (n := n) (fun _ => .fin 0) (fun _ => by show Dbl.mul _ _ = _; decide +kernel)
  have : (Cma.init p m (fun _ => .fin 0) e : Cma G n).D i = .nan := by
    show (.fin 0 : Dbl) * Arith.sqrt (lit (n : ℚ) / sumFin fun _ : Fin n => (.fin 0 : Dbl) * .fin 0) = .nan
    rw [htr, dim_div_zero (by omega)]
    show (.fin 0 : Dbl) * Libm.sqrt .pinf = .nan
    rw [hsq]
    show Dbl.mul _ _ = _
    decide +kernel
  rw [this]
  simp

/-- **C83 (finding).** The same if the standard deviations are so small (`2^-538` = 1.1e-162 or less) that their squares are rounded to 0, even though they are positive. -/
theorem C83_tiny_std (hsq : Libm.sqrt .pinf = .pinf) (hsq0 : Libm.sqrt (.fin 0) = .fin 0) (p : CmaPar Dbl) (hd : p.diagonalCov = 0) (hc : Arith.eq p.ccov (lit 0) = false)
    (hmu : 1 ≤ p.mu) (hml : p.mu ≤ p.lambda) (hmod : Arith.lt (lit 1) (lit 0 + p.modulo) = false) (hn : 2 ≤ n) (mn : Bool) (m : Fin n → Dbl) (std : Fin n → ℚ)
    (hstd : ∀ i, 0 < std i ∧ std i ≤ 1 / 2 ^ 538) (e : G.St) (b : Bounds Dbl n) (fs : List Dbl) (hfs : fs.length = p.lambda) :
    ∃ s xs t, (∀ fuel, (Cma.init p m (fun i => .fin (std i)) e : Cma G n).sampleRun fuel id b p = some (.ok (s, xs))) ∧ (∀ x ∈ s.pop, ∀ i, x i = .nan) ∧
      s.update p mn fs = (t, .ok ()) ∧ ∀ fuel, t.sampleRun (fuel + 1) id b p = some .ub := by
  refine start_nan p hd hc hmu hml hmod hn mn m _ e b fs hfs fun i => ?_
  have hsqr : ∀ i, (.fin (std i) : Dbl) * .fin (std i) = .fin 0 := by
    intro i
    show Dbl.ofQ (std i * std i) = _
    obtain ⟨h0, h1⟩ := hstd i
    have h2 : std i * std i ≤ 1 / 2 ^ 538 * (1 / 2 ^ 538) := mul_le_mul h1 h1 h0.le (by positivity)
    have h3 := bin64_mono h2
    have h4 : bin64 ((1:ℚ) / 2 ^ 538 * (1 / 2 ^ 538)) = 0 := by decide +kernel
    rw [h4] at h3
    have h5 := bin64_mono (mul_self_nonneg (std i))
    rw [bin64_zero] at h5
    have h6 : bin64 (std i * std i) = 0 := _root_.le_antisymm h3 h5
    unfold Dbl.ofQ
    dsimp only
    rw [h6]
    decide +kernel
  have htr := trace_zero _ hsqr
  have h1 : (Cma.init p m (fun i => .fin (std i)) e : Cma G n).D i = .pinf := by
    show (.fin (std i) : Dbl) * Arith.sqrt (lit (n : ℚ) / sumFin fun i : Fin n => (.fin (std i) : Dbl) * .fin (std i)) = .pinf
    rw [htr, dim_div_zero (by omega)]
    show (.fin (std i) : Dbl) * Libm.sqrt .pinf = .pinf
    rw [hsq]
    show Dbl.infSign (std i) = _
    rw [Dbl.infSign, if_pos (hstd i).1]
  have h2 : (Cma.init p m (fun i => .fin (std i)) e : Cma G n).sigma = .fin 0 := by
    show Libm.sqrt ((sumFin fun i : Fin n => (.fin (std i) : Dbl) * .fin (std i)) / lit (n : ℚ)) = .fin 0
    rw [htr]
    have h3 : Dbl.div (.fin 0) (Dbl.ofQ n) = .fin 0 := by
      have h4 : Dbl.le (.fin 1) (Dbl.ofQ n) = true := Dbl.le_ofQ ⟨by decide +kernel, by decide +kernel⟩ (by exact_mod_cast (by omega : 1 ≤ n))
      cases hx : Dbl.ofQ (n : ℚ) with
      | nan => rw [hx] at h4; simp at h4
      | ninf => rw [hx] at h4; simp [Dbl.le] at h4
      | pinf => rfl
      | fin r =>
        rw [hx] at h4
        simp only [Dbl.le, decide_eq_true_eq] at h4
        simp only [Dbl.div, if_neg (show ¬ r = 0 by linarith), zero_div]
        exact Dbl.ofQ_zero
    show Libm.sqrt (Dbl.div (.fin 0) (Dbl.ofQ n)) = _
    rw [h3, hsq0]
  rw [h1, h2]
  rfl

/-- The hypotheses hold for two parameters, four individuals and `update_eigen_modulo` 0, here with a C library in which `sqrt` and `log` are the identity. -/
example : letI := noLibm; ∃ p, CmaPar.make Dbl 2 4 (.fin 0) = .ok p ∧ Libm.sqrt .pinf = .pinf ∧ p.diagonalCov = 0 ∧ Arith.eq p.ccov (lit 0) = false ∧ 1 ≤ p.mu ∧ p.mu ≤ p.lambda ∧
    Arith.lt (lit 1) (lit 0 + p.modulo) = false := by
  letI := noLibm
  have h : (match CmaPar.make Dbl 2 4 (.fin 0) with
      | .ok p => decide (p.diagonalCov = 0) && !Arith.eq p.ccov (lit 0) && decide (1 ≤ p.mu) && decide (p.mu ≤ p.lambda) && !Arith.lt (lit 1) (lit 0 + p.modulo)
      | _ => false) = true := by decide +kernel
  revert h
  cases CmaPar.make Dbl 2 4 (.fin 0) with
  | ok p =>
    intro h
    simp only [Bool.and_eq_true, Bool.not_eq_true', decide_eq_true_eq] at h
    exact ⟨p, rfl, rfl, h.1.1.1.1, h.1.1.1.2, h.1.1.2, h.1.2, h.2⟩
  | err => intro h; cases h
  | ub => intro h; cases h

end Spot
