import Verif.Props.Cma
import Verif.Props.CmaSample
import Verif.Spec.CmaEs

/-! # The program computes the published CMA-ES (C76, C78) -/

namespace Spot

open Matrix

section
variable {n : Nat} {G : GaussSrc ℝ}

/-- What the literature calls the state and the parameters. -/
def Cma.toSpec (s : Cma G n) : Spec.CmaEs.State n := ⟨s.mean, s.sigma, Spec.symmOf s.C, s.ps, s.pc⟩
def CmaPar.toSpec (p : CmaPar ℝ) (mu : Nat) : Spec.CmaEs.Params mu :=
  ⟨fun k => p.weights.getD k 0, p.mueff, p.cs, p.damps, p.ccumcov, p.ccov, p.mucov, p.chiN⟩

/-- `B D^(-1) B^T`, the inverse square root of the covariance matrix. -/
noncomputable def Cma.invSqrt (s : Cma G n) : Matrix (Fin n) (Fin n) ℝ := Matrix.of s.B * diagonal (fun i => (s.D i)⁻¹) * (Matrix.of s.B)ᵀ

variable {opt : Int} {modulo : ℝ} {p : CmaPar ℝ}

/-- **C76.** The default strategy parameters are the published ones, with 1.4142 for the square root of two. -/
theorem C76_parameters (n : Nat) (hn : 1 ≤ n) (opt : Int) (modulo : ℝ) (p : CmaPar ℝ) (h : CmaPar.make ℝ n opt modulo = .ok p) :
    Spec.CmaEs.Defaults n p.lambda 1.4142 (900 * (n + 3) ^ 2) (p.toSpec (p.lambda / 2)) := by
  have hpar := C51_parameters n hn opt modulo p h
  unfold CmaPar.make at h
  rw [Res.bind_eq_ok] at h
  obtain ⟨lambda, hl, h⟩ := h
  rw [Res.bind_eq_ok] at h
  obtain ⟨⟨w, mueff⟩, hw, h⟩ := h
  rw [Res.ok.injEq] at h
  have hlp : p.lambda = lambda := by rw [← h]
  have hl2 : 2 ≤ lambda := by rw [← hlp]; exact hpar.1
  obtain ⟨w', mueff', hw', h1, h2, h3, h4, h5, h6, h7, h8⟩ := C50_weights .log lambda hl2
  rw [hw, Res.ok.injEq, Prod.mk.injEq] at hw'
  obtain ⟨rfl, rfl⟩ := hw'
  have hlw := C50_log_weights lambda w mueff hw
  subst h
  have hget : ∀ i : Fin (lambda / 2), w.getD i 0 = w[(i : Nat)]'(by rw [h1]; exact i.2) := fun i => by
    rw [List.getD_eq_getElem?_getD, List.getElem?_eq_getElem (by rw [h1]; exact i.2), Option.getD_some]
  have hsum : ∀ f : ℝ → ℝ, ∑ i : Fin (lambda / 2), f (w.getD i 0) = (w.map f).sum := by
    intro f
    have : (w.map f) = List.ofFn fun i : Fin (lambda / 2) => f (w.getD i 0) := by
      apply List.ext_getElem
      · simp [h1]
      · intro k hk1 hk2
        rw [List.getElem_ofFn, List.getElem_map]
        have hk : k < w.length := by simpa using hk1
        rw [List.getD_eq_getElem?_getD, List.getElem?_eq_getElem hk, Option.getD_some]
    rw [this, List.sum_ofFn]
  have hmu0 : 0 < lambda / 2 := by omega
  have hlog0 : 0 < Real.log ((lambda / 2 : Nat) + 1) - Real.log ((0 : Nat) + 1) := by
    simp only [Nat.cast_zero, zero_add, Real.log_one, sub_zero]
    refine Real.log_pos ?_
    have : (1 : ℝ) ≤ (lambda / 2 : Nat) := by exact_mod_cast hmu0
    linarith
  have hw0 : 0 < w.getD 0 0 := h2 _ (by rw [hget ⟨0, hmu0⟩]; exact List.getElem_mem _)
  refine ⟨⟨w.getD 0 0 / (Real.log ((lambda / 2 : Nat) + 1) - Real.log ((0 : Nat) + 1)), div_pos hw0 hlog0, fun i => ?_⟩, ?_, ?_, ?_, ?_, rfl, ?_, ?_, ?_⟩
  · have := hlw i 0 i.2 hmu0
    show w.getD i 0 = _
    rw [div_mul_eq_mul_div, eq_div_iff hlog0.ne']
    simp only [Nat.cast_zero] at this ⊢
    linarith
  · have := hsum id
    simp only [id, List.map_id'] at this
    rw [List.map_id] at this
    exact this.trans h3
  · show mueff * ∑ i : Fin (lambda / 2), w.getD i 0 ^ 2 = 1
    rw [hsum (fun x => x ^ 2), h6]
    refine one_div_mul_cancel ?_
    intro h0
    rw [h0] at h6
    rw [h6] at h7
    norm_num at h7
  · show cmaCs n mueff = _
    unfold cmaCs
    simp only [lit_real]; push_cast; rfl
  · show cmaCcumcov ℝ n = _
    unfold cmaCcumcov
    simp only [lit_real]; push_cast; rfl
  · show cmaCcov n mueff = _
    unfold cmaCcov
    simp only [lit_real, lt_real, decide_eq_true_eq, CmaPar.toSpec]
    push_cast
    have : ∀ x : ℝ, (if 1 < x then 1 else x) = min 1 x := by
      intro x
      split
      · rw [min_eq_left (by linarith)]
      · rw [min_eq_right (by linarith)]
    rw [this]
    norm_num
    ring
  · show cmaDamps n lambda mueff (cmaCs n mueff) = _
    unfold cmaDamps
    simp only [lit_real, max_real, sqrt_real, min_real, CmaPar.toSpec]
    have e : cmaMaxFunEvals ℝ n = 900 * (n + 3) ^ 2 := by
      unfold cmaMaxFunEvals
      simp only [lit_real]; push_cast; ring
    rw [e]
    have hceil : ∀ x : ℝ, min (Arith.ceil x) x = x := fun x => min_eq_right (Int.le_ceil x)
    push_cast
    rw [hceil]
    norm_num
  · show cmaChiN ℝ n = _
    unfold cmaChiN
    simp only [lit_real, sqrt_real]; push_cast; ring

/-- What the calls keep: sizes, and the eigensystem of the first generation. -/
structure Cma.Shape (p : CmaPar ℝ) (s : Cma G n) : Prop where
  index : s.index.length = p.lambda
  pop : s.pop.length = p.lambda
  first : s.gen = 0 → s.B = (fun i j => if i = j then lit 1 else lit 0) ∧ s.eigenUptodate = true

theorem call_shape (b : Bounds ℝ n) (mn : Bool) (eig : Eig ℝ n) {s : Cma G n} (h : s.Shape p) (hg : s.state = 1 → 1 ≤ s.gen) (c : CmaCall ℝ n) :
    (s.call b mn eig p c).1.Shape p := by
  cases c with
  | sample tr =>
    obtain ⟨h1, h2, h3, h4⟩ := s.sample_same tr b eig p
    refine ⟨?_, h3, fun h0 => ?_⟩
    · show (s.sample tr b eig p).1.index.length = _
      rw [h1.index]; exact h.index
    · change (s.sample tr b eig p).1.gen = 0 at h0
      rw [h4] at h0
      split at h0 <;> omega
  | update fs =>
    show (s.update p mn fs).1.Shape p
    rcases s.update_cases p mn fs with ⟨hst, -, he⟩ | ⟨-, he⟩
    · rw [he]
      obtain ⟨a1, a2, a3, a4, a5, -⟩ := Cma.adapt_fields p (s.rank p (if mn then fs else fs.map Dbl.neg))
      refine ⟨?_, ?_, fun h0 => ?_⟩
      · rw [a4]
        show (sortedIndex _ s.index _).length = _
        unfold sortedIndex
        rw [sortOuter_length, List.length_set]; exact h.index
      · rw [a5]; exact h.pop
      · rw [a1] at h0
        have := hg hst
        have h0' : s.gen = 0 := h0
        omega
    · rw [he]; exact h

theorem calls_shape (hn : 1 ≤ n) (hp : CmaPar.make ℝ n opt modulo = .ok p) (b : Bounds ℝ n) (mn : Bool) (eig : Eig ℝ n) (m std : Fin n → ℝ)
    (hstd : ∀ i, 0 < std i) (e : G.St) {cs : List (CmaCall ℝ n × Res Unit)} {s : Cma G n} (h : Cma.Calls b mn eig p (Cma.init p m std e) cs s) :
    s.Shape p ∧ s.Inv p := by
  induction h with
  | nil => exact ⟨⟨by simp [Cma.init], by simp [Cma.init], fun _ => ⟨rfl, rfl⟩⟩, init_inv hn m std hstd e⟩
  | snoc h c ih => exact ⟨call_shape b mn eig ih.1 ih.2.gen c, call_inv hn hp b mn eig ih.2 c⟩

theorem vec_norm (v : Fin n → ℝ) : Real.sqrt (∑ i, v i * v i) = Spec.CmaEs.norm v := rfl

/-- The update, for a ranked population. -/
theorem adapt_step (hn : 1 ≤ n) (hp : CmaPar.make ℝ n opt modulo = .ok p) {s : Cma G n} (hs : 0 < s.sigma) (hg : 1 ≤ s.gen) (fs : List Dbl) :
    Spec.CmaEs.Step (p.toSpec p.mu) s.gen s.invSqrt (fun k => (s.rank p fs).ranked k)
      (Dbl.eq (fitAt fs ((s.rank p fs).index.getD 0 0)) (fitAt fs ((s.rank p fs).index.getD (p.lambda / 2) 0)) = true)
      s.toSpec ((s.rank p fs).adapt p).toSpec := by
  obtain ⟨q1, q2, q3, q4, q5, q6, q7, q8, q9, q10, q11, q12, q13, q14, q15, q16, q17, q18, q19, q20⟩ := C51_parameters n hn opt modulo p hp
  set r := s.rank p fs with hr
  have hrs : 0 < r.sigma := by
    rcases (rank_fields p s fs).2.2 with h | h
    · rw [hr, h]; exact hs
    · rw [hr, h]; positivity
  obtain ⟨a1, a2, a3, a4, a5, a6, a7, a8, a9, a10⟩ := Cma.adapt_fields p r
  have hd : ∀ t : Cma G n, t.gen = s.gen → t.flgdiag p = false := fun t ht => flgdiag_false q20 (by rw [ht]; exact hg)
  set t := r.paths p with ht
  have htm : t.mean = r.newMean p := rfl
  have hxo : t.xold = s.mean := rfl
  have hbdz : ∀ i, (r.move p).bdz p i = Real.sqrt p.mueff * ((r.newMean p i - s.mean i) / r.sigma) := by
    intro i
    show Real.sqrt p.mueff * (r.newMean p i - s.mean i) / r.sigma = _
    ring
  have hps : t.ps = fun i => (1 - p.cs) * s.ps i + Real.sqrt (p.cs * (2 - p.cs) * p.mueff) * (s.invSqrt *ᵥ fun i => (r.newMean p i - s.mean i) / r.sigma) i := by
    funext i
    show (r.move p).newPs p i = _
    unfold Cma.newPs Cma.whiten
    rw [hd (r.move p) rfl]
    simp only [Bool.false_eq_true, if_false, sumFin_real, lit_real, sqrt_real, hbdz, Rat.cast_one, Rat.cast_ofNat]
    refine congrArg₂ (· + ·) rfl ?_
    rw [Real.sqrt_mul (x := p.cs * (2 - p.cs)) (by have : 0 < 2 - p.cs := by linarith
                                                   positivity), mul_assoc]
    refine congrArg₂ (· * ·) rfl ?_
    simp only [Cma.invSqrt, mulVec, _root_.dotProduct, Matrix.mul_apply, diagonal_apply, transpose_apply, of_apply, mul_ite, mul_zero, Finset.sum_ite_eq', Finset.mem_univ, if_true]
    show ∑ x, s.B i x * ((∑ x_1, s.B x_1 x * (Real.sqrt p.mueff * ((r.newMean p x_1 - s.mean x_1) / r.sigma))) / s.D x) = _
    simp only [div_eq_mul_inv, Finset.mul_sum, Finset.sum_mul]
    rw [Finset.sum_comm]
    exact Finset.sum_congr rfl fun j _ => Finset.sum_congr rfl fun k _ => by ring
  have hpsn : Real.sqrt t.psxps = Spec.CmaEs.norm t.ps := by
    unfold Cma.psxps
    rw [sumFin_real, vec_norm]
  set h : ℝ := if t.hsig p then 1 else 0 with hh
  have hpc : t.pc = fun i => (1 - p.ccumcov) * s.pc i + h * Real.sqrt (p.ccumcov * (2 - p.ccumcov) * p.mueff) * ((r.newMean p i - s.mean i) / r.sigma) := by
    funext i
    show (lit 1 - p.ccumcov : ℝ) * s.pc i + (if t.hsig p then lit 1 else lit 0) * Arith.sqrt (p.ccumcov * (lit 2 - p.ccumcov)) * (r.move p).bdz p i = _
    rw [hbdz, Real.sqrt_mul (by have : 0 < 2 - p.ccumcov := by linarith
                                positivity), hh]
    simp only [lit_real, sqrt_real]
    push_cast
    ring
  have hsig : t.hsig p = true ↔ Spec.CmaEs.norm t.ps < (1.4 + 2 / (n + 1)) * p.chiN * Real.sqrt (1 - (1 - p.cs) ^ (2 * s.gen)) := by
    unfold Cma.hsig
    simp only [lt_real, decide_eq_true_eq, sqrt_real, hpsn, lit_real, pow_real]
    push_cast
    have hpow : (1 - p.cs : ℝ) ^ ((2 : ℝ) * (t.gen : ℝ)) = (1 - p.cs) ^ (2 * s.gen) := by
      have : (2 : ℝ) * (t.gen : ℝ) = ((2 * s.gen : Nat) : ℝ) := by push_cast; rfl
      rw [this, Real.rpow_natCast]
    rw [hpow]
    have hlt : (1 - p.cs) ^ (2 * s.gen) < 1 := pow_lt_one₀ (by linarith) (by linarith) (by omega)
    have hsq : 0 < Real.sqrt (1 - (1 - p.cs) ^ (2 * s.gen)) := Real.sqrt_pos.2 (by linarith)
    rw [div_div, div_lt_iff₀ (by positivity)]
    norm_num
    rw [show (7 / 5 + 2 / ((n : ℝ) + 1)) * (Real.sqrt (1 - (1 - p.cs) ^ (2 * s.gen)) * p.chiN) =
      (7 / 5 + 2 / (n + 1)) * p.chiN * Real.sqrt (1 - (1 - p.cs) ^ (2 * s.gen)) by ring]
  have hm : 1 ≤ p.mucov := by rw [q9]; exact q7
  have hgt : 1 ≤ t.gen := hg
  have hsum : ∀ f : Nat → ℝ, ∑ k ∈ Finset.range p.mu, f k = ∑ k : Fin p.mu, f k := fun f => Finset.sum_range f
  refine ⟨r.sigma, fun i => (r.newMean p i - s.mean i) / r.sigma, h, ?_, ?_, ?_, ?_, ?_, ?_, ?_, ?_, ?_, ?_⟩
  · intro hf
    rw [hr]
    show (if _ then _ else _) = _
    rw [hr] at hf
    change Dbl.eq (fitAt fs ((sortedIndex fs s.index p.lambda).getD 0 0)) (fitAt fs ((sortedIndex fs s.index p.lambda).getD (p.lambda / 2) 0)) = true at hf
    rw [if_pos hf]
    simp only [exp_real, lit_real, Cma.toSpec, CmaPar.toSpec]
    norm_num
  · intro hf
    rw [hr]
    show (if _ then _ else _) = _
    rw [hr] at hf
    change ¬ Dbl.eq (fitAt fs ((sortedIndex fs s.index p.lambda).getD 0 0)) (fitAt fs ((sortedIndex fs s.index p.lambda).getD (p.lambda / 2) 0)) = true at hf
    rw [if_neg hf]
    rfl
  · show (r.adapt p).mean = _
    rw [a3]
    funext i
    unfold Cma.newMean
    rw [sumLoop_real, hsum, Finset.sum_apply]
    refine Finset.sum_congr rfl fun k _ => ?_
    simp [CmaPar.toSpec]
  · show r.sigma • _ = (r.adapt p).mean - s.mean
    rw [a3]
    funext i
    simp only [Pi.smul_apply, smul_eq_mul, Pi.sub_apply]
    rw [mul_div_cancel₀ _ hrs.ne']
  · show (r.adapt p).ps = _
    rw [a7, hps]
    rfl
  · intro hx
    rw [hh, if_pos]
    rw [hsig]
    have hx' : Spec.CmaEs.norm (r.adapt p).ps < _ := hx
    rw [a7] at hx'
    exact hx'
  · intro hx
    rw [hh, if_neg]
    rw [hsig]
    have hx' : ¬ Spec.CmaEs.norm (r.adapt p).ps < _ := hx
    rw [a7] at hx'
    exact hx'
  · show (r.adapt p).pc = _
    rw [a8, hpc]
    rfl
  · show Spec.symmOf (r.adapt p).C = _
    rw [a9]
    have hC : ∀ i j, Spec.symmOf (t.adaptC p (t.hsig p)).C i j =
        (1 - p.ccov + p.ccov / p.mucov * (1 - h) * p.ccumcov * (2 - p.ccumcov)) * Spec.symmOf s.C i j + p.ccov / p.mucov * (t.pc i * t.pc j) +
        ∑ k ∈ Finset.range p.mu, p.ccov * (1 - 1 / p.mucov) / r.sigma ^ 2 * p.weights.getD k 0 * ((r.ranked k i - s.mean i) * (r.ranked k j - s.mean j)) := by
      intro i j
      have hsg : (if t.hsig p = true then (0 : ℝ) else 1) = 1 - h := by
        rw [hh]; cases t.hsig p <;> simp
      unfold Spec.symmOf Cma.adaptC
      have : Arith.eq p.ccov (lit 0) = false := by simp [q14.ne']
      rw [this, hd t rfl]
      simp only [Bool.false_eq_true, if_false]
      split
      · rw [newC_real q20 hm q14 q15 hgt, hsg]; rfl
      · rename_i hij
        rw [if_pos (le_of_not_ge hij), newC_real q20 hm q14 q15 hgt, hsg]
        congr 1
        · congr 1
          exact congrArg _ (mul_comm _ _)
        · refine Finset.sum_congr rfl fun k _ => ?_
          exact congrArg₂ _ rfl (mul_comm _ _)
    funext i j
    rw [hC, hsum]
    have e8 : (r.adapt p).toSpec.pc = t.pc := a8
    simp only [e8, Matrix.add_apply, Matrix.smul_apply, Matrix.sum_apply, vecMulVec_apply, smul_eq_mul, Pi.smul_apply, Pi.sub_apply]
    simp only [Cma.toSpec, CmaPar.toSpec]
    rw [Finset.mul_sum]
    congr 1
    · ring
    · refine Finset.sum_congr rfl fun k _ => ?_
      field_simp
  · show (r.adapt p).sigma = _
    rw [a10]
    have e7 : (r.adapt p).toSpec.pσ = t.ps := a7
    rw [e7]
    simp only [sqrt_real, hpsn, exp_real, lit_real, CmaPar.toSpec]
    congr 2
    push_cast
    ring

/-- `x` is better than `y`. -/
def betterFit (minimize : Bool) (x y : Dbl) : Bool := if minimize then Dbl.lt x y else Dbl.lt y x

theorem neg_lt (x y : Dbl) : Dbl.lt x.neg y.neg = Dbl.lt y x := by
  cases x <;> cases y <;> simp [Dbl.neg, Dbl.lt]

theorem neg_eq (x y : Dbl) : Dbl.eq x.neg y.neg = Dbl.eq x y := by
  cases x <;> cases y <;> simp [Dbl.neg, Dbl.eq]

/-- **C76.** Exact arithmetic. After any calls of which the last that succeeded is `sample_population`, `update_distribution` with one fitness
for each individual makes the step of the published algorithm in the current generation, with `B D^(-1) B^T` of the current eigensystem as
inverse square root of the covariance matrix, and the `mu` individuals of the population that come first in a ranking of all individuals by fitness
(the best first, minimizing or maximizing). -/
theorem C76_update (hn : 1 ≤ n) (hp : CmaPar.make ℝ n opt modulo = .ok p) (m std : Fin n → ℝ) (hstd : ∀ i, 0 < std i) (e : G.St)
    (b : Bounds ℝ n) (minimize : Bool) (eig : Eig ℝ n) {cs : List (CmaCall ℝ n × Res Unit)} {s : Cma G n}
    (h : Cma.Calls b minimize eig p (Cma.init p m std e) cs s) (hl : lastIsSample (succeeded cs) = true) (fs : List Dbl) (hfs : fs.length = p.lambda) :
    (s.update p minimize fs).2 = .ok () ∧ s.pop.length = p.lambda ∧
    ∃ order : List Nat, order.Perm (List.range p.lambda) ∧
      (∀ (i j a c : Nat) (x y : Dbl), i < j → order[i]? = some a → order[j]? = some c → fs[a]? = some x → fs[c]? = some y → betterFit minimize y x = false) ∧
      ∃ x : Fin p.mu → Fin n → ℝ, (∀ k : Fin p.mu, ∃ a, order[(k : Nat)]? = some a ∧ s.pop[a]? = some (x k)) ∧
      ∃ f0 f1 : Dbl, (∃ a, order[0]? = some a ∧ fs[a]? = some f0) ∧ (∃ a, order[p.lambda / 2]? = some a ∧ fs[a]? = some f1) ∧
      Spec.CmaEs.Step (p.toSpec p.mu) s.gen s.invSqrt x (Dbl.eq f0 f1 = true) s.toSpec (s.update p minimize fs).1.toSpec := by
  obtain ⟨q1, q2, q3, -⟩ := C51_parameters n hn opt modulo p hp
  obtain ⟨hsh, hinv⟩ := calls_shape hn hp b minimize eig m std hstd e h
  obtain ⟨h1, -⟩ := calls_phase h
  rw [hl] at h1
  have hst : s.state = 1 := by simpa using h1
  rcases s.update_cases p minimize fs with ⟨-, -, he⟩ | ⟨hne, -⟩
  swap
  · exact absurd ⟨hst, hfs⟩ hne
  set gs := if minimize then fs else fs.map Dbl.neg with hgs
  have hgl : gs.length = p.lambda := by rw [hgs]; split <;> simp [hfs]
  obtain ⟨hperm, hsort⟩ := C52_ranking gs s.index (by rw [hsh.index, hgl])
  rw [hgl] at hperm hsort
  set order := sortedIndex gs s.index p.lambda with ho
  have hget : ∀ a : Nat, gs[a]? = (fs[a]?).map fun x => if minimize then x else x.neg := by
    intro a
    rw [hgs]
    split <;> rename_i hm
    · simp
    · simp [List.getElem?_map]
  have hol : order.length = p.lambda := by rw [hperm.length_eq, List.length_range]
  have hlt : ∀ k < p.lambda, ∃ a, order[k]? = some a ∧ a < p.lambda := by
    intro k hk
    refine ⟨order[k]'(by omega), List.getElem?_eq_getElem _, ?_⟩
    exact List.mem_range.1 (hperm.mem_iff.1 (List.getElem_mem _))
  have hfit : ∀ k < p.lambda, ∃ f a, order[k]? = some a ∧ fs[a]? = some f ∧ fitAt gs (order.getD k 0) = if minimize then f else f.neg := by
    intro k hk
    obtain ⟨a, ha, hal⟩ := hlt k hk
    refine ⟨fs[a]'(by omega), a, ha, List.getElem?_eq_getElem _, ?_⟩
    rw [List.getD_eq_getElem?_getD, ha, Option.getD_some, fitAt, List.getD_eq_getElem?_getD, hget, List.getElem?_eq_getElem (by omega)]
    rfl
  rw [he]
  refine ⟨rfl, hsh.pop, order, hperm, ?_, fun k => (s.rank p gs).ranked k, ?_, ?_⟩
  · intro i j a c x y hij ha hc hx hy
    have := hsort i j a c (if minimize then x else x.neg) (if minimize then y else y.neg) hij ha hc (by rw [hget, hx]; rfl) (by rw [hget, hy]; rfl)
    unfold betterFit
    cases minimize
    · simpa [neg_lt] using this
    · simpa using this
  · intro k
    have hk : (k : Nat) < p.lambda := by have := k.2; omega
    obtain ⟨a, ha, hal⟩ := hlt k hk
    refine ⟨a, ha, ?_⟩
    show _ = some (s.pop.getD (order.getD k 0) fun _ => lit 0)
    rw [List.getD_eq_getElem?_getD (l := order), ha, Option.getD_some, List.getD_eq_getElem?_getD, List.getElem?_eq_getElem (by rw [hsh.pop]; exact hal), Option.getD_some]
  · obtain ⟨f0, a0, h01, h02, h03⟩ := hfit 0 (by omega)
    obtain ⟨f1, a1, h11, h12, h13⟩ := hfit (p.lambda / 2) (by omega)
    refine ⟨f0, f1, ⟨a0, h01, h02⟩, ⟨a1, h11, h12⟩, ?_⟩
    have hstep := adapt_step hn hp hinv.sigma (hinv.gen hst) gs
    have hidx : (s.rank p gs).index = order := rfl
    rw [hidx, h03, h13] at hstep
    have : (Dbl.eq (if minimize then f0 else f0.neg) (if minimize then f1 else f1.neg)) = Dbl.eq f0 f1 := by
      cases minimize
      · simp [neg_eq]
      · simp
    rw [this] at hstep
    exact hstep

end

end Spot
