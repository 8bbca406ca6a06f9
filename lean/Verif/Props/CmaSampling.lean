import Verif.Props.CmaEquations
import Mathlib.Analysis.Matrix.Spectrum
import Mathlib.LinearAlgebra.Matrix.NonsingularInverse

/-! # What CMA-ES samples (C77, C78) -/

namespace Spot

open Matrix

section
variable {n : Nat} {G : GaussSrc ℝ}

/-- `m + sigma B D z`. -/
noncomputable def Cma.gaussian (s : Cma G n) (z : Fin n → ℝ) : Fin n → ℝ := s.mean + s.sigma • (Matrix.of s.B *ᵥ (diagonal s.D *ᵥ z))

theorem individual_false (s : Cma G n) (z : Fin n → ℝ) : s.individual false z = s.gaussian z := by
  funext i
  unfold Cma.individual Cma.gaussian
  simp [mulVec, _root_.dotProduct, mul_assoc]

theorem individual_first (s : Cma G n) (hB : s.B = fun i j => if i = j then lit 1 else lit 0) (d : Bool) (z : Fin n → ℝ) : s.individual d z = s.gaussian z := by
  cases d
  · exact individual_false s z
  · funext i
    unfold Cma.individual Cma.gaussian
    simp only [hB]
    simp [mulVec, _root_.dotProduct, mul_assoc]

variable (S : Set ℝ) (hS : ∀ e, (G.next e).1 ∈ S)
include hS

theorem drawN_mem : ∀ (k : Nat) (e : G.St), ∀ x ∈ (drawN G k e).1, x ∈ S
  | 0, _, x, hx => by cases hx
  | k + 1, e, x, hx => by
    rw [drawN, List.mem_cons] at hx
    rcases hx with rfl | hx
    · exact hS e
    · exact drawN_mem k _ x hx

theorem vecOf_mem (e : G.St) (i : Fin n) : vecOf n (drawN G n e).1 i ∈ S := by
  unfold vecOf
  have : (i : Nat) < (drawN G n e).1.length := by rw [(drawN_rng n e).2]; exact i.2
  rw [List.getD_eq_getElem?_getD, List.getElem?_eq_getElem this, Option.getD_some]
  exact drawN_mem S hS n e _ (List.getElem_mem this)

/-- Drawn from the distribution: the mean plus the transformed Gaussian numbers. -/
def Cma.Drawn (S : Set ℝ) (s : Cma G n) (y : Fin n → ℝ) : Prop := ∃ z : Fin n → ℝ, (∀ j, z j ∈ S) ∧ y = s.gaussian z

theorem sampleLoop_drawn (s : Cma G n) (d : Bool) (hd : ∀ z, s.individual d z = s.gaussian z) : ∀ (k : Nat) (e : G.St), ∀ y ∈ (s.sampleLoop d k e).1, s.Drawn S y
  | 0, _, y, hy => by cases hy
  | k + 1, e, y, hy => by
    rw [Cma.sampleLoop, List.mem_cons] at hy
    rcases hy with rfl | hy
    · exact ⟨_, vecOf_mem S hS e, hd _⟩
    · exact sampleLoop_drawn s d hd k _ y hy

omit hS in
theorem Drawn_same {s t : Cma G n} (h : s.SameE t) {y : Fin n → ℝ} : t.Drawn S y ↔ s.Drawn S y := by
  unfold Cma.Drawn Cma.gaussian
  rw [h.mean, h.sigma, h.B, h.D]

theorem attempts_drawn (tr : (Fin n → ℝ) → Fin n → ℝ) (b : Bounds ℝ n) (k : Nat) : ∀ (m : Nat) (s : Cma G n), k < s.pop.length →
    s.Drawn S (s.pop.getD k fun _ => lit 0) →
    (∀ t x, Cma.attempts tr b k m s (s.pop.getD k fun _ => lit 0) = (t, x, true) → ∃ y, t.pop[k]? = some y ∧ s.Drawn S y ∧ x = tr y) ∧
    (∀ t x, Cma.attempts tr b k m s (s.pop.getD k fun _ => lit 0) = (t, x, false) → s.Drawn S x)
  | 0, s, hk, hd => by
    refine ⟨fun t x h => (by cases h), fun t x h => ?_⟩
    cases h
    exact hd
  | m + 1, s, hk, hd => by
    unfold Cma.attempts
    by_cases hf : b.feasible (tr (s.pop.getD k fun _ => lit 0)) = true
    · rw [if_pos hf]
      refine ⟨fun t x h => ?_, fun t x h => by cases h⟩
      cases h
      refine ⟨_, ?_, hd, rfl⟩
      rw [List.getD_eq_getElem?_getD, List.getElem?_eq_getElem hk, Option.getD_some]
    · rw [if_neg hf]
      have hsame := s.resample_same k
      have hpop : (s.resampleSingle k).pop.getD k (fun _ => lit 0) = s.gaussian (vecOf n (drawN G n s.rng).1) := by
        rw [List.getD_eq_getElem?_getD]
        show ((s.pop.set k _)[k]?).getD _ = _
        rw [List.getElem?_set_self hk, Option.getD_some, individual_false]
      obtain ⟨h1, h2⟩ := attempts_drawn tr b k m (s.resampleSingle k) (by rw [hsame.popLen]; exact hk)
        ((Drawn_same S hsame).2 (by rw [hpop]; exact ⟨_, vecOf_mem S hS s.rng, rfl⟩))
      refine ⟨fun t x h => ?_, fun t x h => (Drawn_same S hsame).1 (h2 t x h)⟩
      obtain ⟨y, g1, g2, g3⟩ := h1 t x h
      exact ⟨y, g1, (Drawn_same S hsame).1 g2, g3⟩

/-- What an individual can be: drawn and transformed, or drawn and clamped. -/
def Cma.Accepted (S : Set ℝ) (tr : (Fin n → ℝ) → Fin n → ℝ) (b : Bounds ℝ n) (s : Cma G n) (x y : Fin n → ℝ) : Prop :=
  (s.Drawn S y ∧ x = tr y) ∨ ∃ y0, s.Drawn S y0 ∧ y = b.clamp y0 ∧ x = y

theorem bounded_drawn (tr : (Fin n → ℝ) → Fin n → ℝ) (b : Bounds ℝ n) (s : Cma G n) (k : Nat) (hk : k < s.pop.length)
    (hd : s.Drawn S (s.pop.getD k fun _ => lit 0)) : ∃ y, (s.bounded tr b k).1.pop[k]? = some y ∧ s.Accepted S tr b (s.bounded tr b k).2 y := by
  obtain ⟨h1, h2⟩ := attempts_drawn S hS tr b k 100 s hk hd
  have hlen := (Cma.attempts_same tr b k 100 s (s.pop.getD k fun _ => lit 0)).popLen
  unfold Cma.bounded
  rcases hr : Cma.attempts tr b k 100 s (s.pop.getD k fun _ => lit 0) with ⟨t, x, f⟩
  rw [hr] at hlen
  cases f
  · refine ⟨b.clamp x, ?_, .inr ⟨x, h2 t x hr, rfl, rfl⟩⟩
    show (t.pop.set k _)[k]? = _
    rw [List.getElem?_set_self (by rw [hlen]; exact hk)]
  · obtain ⟨y, g1, g2, g3⟩ := h1 t x hr
    exact ⟨y, g1, .inl ⟨g2, g3⟩⟩

omit hS in
theorem bounded_other (tr : (Fin n → ℝ) → Fin n → ℝ) (b : Bounds ℝ n) (s : Cma G n) (k : Nat) (hk : k < s.pop.length) (j : Nat) (hj : j ≠ k) :
    (s.bounded tr b k).1.pop[j]? = s.pop[j]? := by
  obtain ⟨q, -, -, h3, -, -⟩ := attempts_spec tr b k 100 s hk
  unfold Cma.bounded
  rcases hr : Cma.attempts tr b k 100 s (s.pop.getD k fun _ => lit 0) with ⟨t, x, f⟩
  rw [hr] at h3
  cases f
  · show (t.pop.set k _)[j]? = _
    rw [List.getElem?_set_ne (Ne.symm hj)]
    exact h3 j hj
  · exact h3 j hj

theorem boundedLoop_drawn (tr : (Fin n → ℝ) → Fin n → ℝ) (b : Bounds ℝ n) : ∀ (ks : List Nat) (s : Cma G n), ks.Nodup →
    (∀ k ∈ ks, k < s.pop.length ∧ s.Drawn S (s.pop.getD k fun _ => lit 0)) →
    List.Forall₂ (fun k x => ∃ y, (Cma.boundedLoop tr b ks s).1.pop[k]? = some y ∧ s.Accepted S tr b x y) ks (Cma.boundedLoop tr b ks s).2 ∧
    (∀ j, j ∉ ks → (Cma.boundedLoop tr b ks s).1.pop[j]? = s.pop[j]?)
  | [], s, _, _ => ⟨.nil, fun _ _ => rfl⟩
  | k :: ks, s, hnd, hk => by
    rw [List.nodup_cons] at hnd
    obtain ⟨y, g2, g3⟩ := bounded_drawn S hS tr b s k (hk k (by simp)).1 (hk k (by simp)).2
    have g4 := bounded_other tr b s k (hk k (by simp)).1
    have hsame := s.bounded_same tr b k
    have hacc : ∀ {x y}, (s.bounded tr b k).1.Accepted S tr b x y → s.Accepted S tr b x y := by
      intro x y h
      rcases h with ⟨h, h'⟩ | ⟨y0, h, h'⟩
      · exact .inl ⟨(Drawn_same S hsame).1 h, h'⟩
      · exact .inr ⟨y0, (Drawn_same S hsame).1 h, h'⟩
    obtain ⟨r1, r2⟩ := boundedLoop_drawn tr b ks (s.bounded tr b k).1 hnd.2 (fun j hj => by
      refine ⟨by rw [hsame.popLen]; exact (hk j (by simp [hj])).1, (Drawn_same S hsame).2 ?_⟩
      have hjk : j ≠ k := fun hh => hnd.1 (hh ▸ hj)
      rw [List.getD_eq_getElem?_getD, g4 j hjk, ← List.getD_eq_getElem?_getD]
      exact (hk j (by simp [hj])).2)
    refine ⟨.cons ⟨y, ?_, g3⟩ (r1.imp fun a x ⟨y, h1, h2⟩ => ⟨y, h1, hacc h2⟩), fun j hj => ?_⟩
    · show (Cma.boundedLoop tr b ks (s.bounded tr b k).1).1.pop[k]? = some y
      rw [r2 k hnd.1, g2]
    · show (Cma.boundedLoop tr b ks (s.bounded tr b k).1).1.pop[j]? = _
      simp only [List.mem_cons, not_or] at hj
      rw [r2 j hj.2, g4 j hj.1]

theorem sample_drawn {p : CmaPar ℝ} (hpd : p.diagonalCov = 0) (tr : (Fin n → ℝ) → Fin n → ℝ) (b : Bounds ℝ n) (eig : Eig ℝ n) (s : Cma G n) (hsh : s.Shape p) :
    (s.sample tr b eig p).2.length = p.lambda ∧ (∀ (k : Nat) (x : Fin n → ℝ), (s.sample tr b eig p).2[k]? = some x →
      ∃ y, (s.sample tr b eig p).1.pop[k]? = some y ∧ (s.sample tr b eig p).1.Accepted S tr b x y) := by
  set u := s.samplePopulation eig p with hu
  have hlen : u.pop.length = p.lambda := Cma.sampleLoop_length _ _ _ _
  obtain ⟨e1, e2, -⟩ := s.prepare_same eig p
  have hind : ∀ z, (s.prepare eig p).individual ((s.prepare eig p).flgdiag p) z = (s.prepare eig p).gaussian z := by
    intro z
    by_cases hg : s.gen = 0
    · refine individual_first _ ?_ _ z
      obtain ⟨hB, hup⟩ := hsh.first hg
      unfold Cma.prepare
      rw [if_pos hup]
      exact hB
    · rw [flgdiag_false hpd (by rw [e2]; omega)]
      exact individual_false _ z
  have hdr : ∀ y ∈ u.pop, u.Drawn S y := fun y hy => sampleLoop_drawn S hS (s.prepare eig p) _ hind _ _ y hy
  obtain ⟨h1, -⟩ := boundedLoop_drawn S hS tr b (List.range p.lambda) u List.nodup_range
    (fun k hk => by
      have hk' : k < u.pop.length := by rw [hlen]; exact List.mem_range.1 hk
      refine ⟨hk', hdr _ ?_⟩
      rw [List.getD_eq_getElem?_getD, List.getElem?_eq_getElem hk', Option.getD_some]
      exact List.getElem_mem hk')
  have hsame : u.SameE (s.sample tr b eig p).1 := Cma.boundedLoop_same tr b (List.range p.lambda) u
  refine ⟨by rw [Cma.sample, ← h1.length_eq, List.length_range], fun k x hx => ?_⟩
  obtain ⟨hk, rfl⟩ := List.getElem?_eq_some_iff.1 hx
  have hk2 : k < (List.range p.lambda).length := by rw [h1.length_eq]; exact hk
  have := h1.get hk2 hk
  simp only [List.get_eq_getElem, List.getElem_range] at this
  obtain ⟨y, hy, hacc⟩ := this
  refine ⟨y, hy, ?_⟩
  rcases hacc with ⟨h, h'⟩ | ⟨y0, h, h'⟩
  · exact .inl ⟨(Drawn_same S hsame).2 h, h'⟩
  · exact .inr ⟨y0, (Drawn_same S hsame).2 h, h'⟩

end

section
variable {n : Nat} {G : GaussSrc ℝ} {opt : Int} {modulo : ℝ} {p : CmaPar ℝ}

/-- **C78.** Exact arithmetic. If all Gaussian numbers are in `S`, then after any calls each of the `lambda` individuals `y` that `sample_population`
creates is `m + sigma B D z` for a vector `z` of such numbers and the current mean, step size and eigensystem, and `x`, the boundary transformation
of `y`, is what is evaluated; or - after 100 infeasible attempts - `y` is such a point clamped to the bounds, and it is evaluated itself. (`S` is arbitrary: with
`S = {0}`, say, only the mean is sampled; with `S = [-c, c]`, only points within `c` standard deviations.) -/
theorem C78_individuals (S : Set ℝ) (hS : ∀ e, (G.next e).1 ∈ S) (hn : 1 ≤ n) (hp : CmaPar.make ℝ n opt modulo = .ok p) (m std : Fin n → ℝ)
    (hstd : ∀ i, 0 < std i) (e : G.St) (b : Bounds ℝ n) (minimize : Bool) (eig : Eig ℝ n) {cs : List (CmaCall ℝ n × Res Unit)} {s : Cma G n}
    (h : Cma.Calls b minimize eig p (Cma.init p m std e) cs s) (tr : (Fin n → ℝ) → Fin n → ℝ) :
    let t := (s.sample tr b eig p).1
    t.mean = s.mean ∧ t.sigma = s.sigma ∧ (s.sample tr b eig p).2.length = p.lambda ∧
    ∀ (k : Nat) (x : Fin n → ℝ), (s.sample tr b eig p).2[k]? = some x → ∃ (y z : Fin n → ℝ), t.pop[k]? = some y ∧ (∀ j, z j ∈ S) ∧
      (y = t.mean + t.sigma • (Matrix.of t.B *ᵥ (diagonal t.D *ᵥ z)) ∧ x = tr y ∨
       y = b.clamp (t.mean + t.sigma • (Matrix.of t.B *ᵥ (diagonal t.D *ᵥ z))) ∧ x = y) := by
  obtain ⟨q1, q2, q3, q4, q5, q6, q7, q8, q9, q10, q11, q12, q13, q14, q15, q16, q17, q18, q19, q20⟩ := C51_parameters n hn opt modulo p hp
  obtain ⟨hsh, hinv⟩ := calls_shape hn hp b minimize eig m std hstd e h
  obtain ⟨h1, h2⟩ := sample_drawn S hS q20 tr b eig s hsh
  have hsame := (s.sample_same tr b eig p).1
  refine ⟨hsame.mean, hsame.sigma, h1, fun k x hx => ?_⟩
  obtain ⟨y, hy, hacc⟩ := h2 k x hx
  rcases hacc with ⟨⟨z, hz, hyz⟩, hx'⟩ | ⟨y0, ⟨z, hz, hyz⟩, hyc, hx'⟩
  · exact ⟨y, z, hy, hz, .inl ⟨hyz, hx'⟩⟩
  · exact ⟨y, z, hy, hz, .inr ⟨by rw [hyc, hyz]; rfl, hx'⟩⟩

/-! ## The eigensystem -/

/-- An exact eigenvalue decomposition. -/
def Eig.Exact (eig : Eig ℝ n) : Prop := ∀ L, Spec.PosDef (Spec.symmOf L) →
  (Matrix.of (eig L).2)ᵀ * Matrix.of (eig L).2 = 1 ∧ Matrix.of (Spec.symmOf L) = Matrix.of (eig L).2 * diagonal (eig L).1 * (Matrix.of (eig L).2)ᵀ

/-- The eigensystem is that of the covariance matrix: `C = B D^2 B^T`. -/
def Cma.EigenExact (s : Cma G n) : Prop :=
  (Matrix.of s.B)ᵀ * Matrix.of s.B = 1 ∧ (∀ i, 0 < s.D i) ∧ Matrix.of (Spec.symmOf s.C) = Matrix.of s.B * diagonal (fun i => s.D i ^ 2) * (Matrix.of s.B)ᵀ

structure Cma.EigInv (s : Cma G n) : Prop where
  exact : s.eigenUptodate = true → s.EigenExact
  stale : s.eigenUptodate = false → s.genOfEigen + 1 ≤ s.gen
  le : s.genOfEigen ≤ s.gen
  sampled : s.state = 1 → s.genOfEigen + 1 ≤ s.gen ∧ s.eigenUptodate = true
  first : s.gen = 0 → s.eigenUptodate = true
  phase : s.state = 1 ∨ s.state = 3 ∨ s.gen = 0

theorem quad_eq (M : Fin n → Fin n → ℝ) (x : Fin n → ℝ) : Spec.quad M x = x ⬝ᵥ (Matrix.of M *ᵥ x) := by
  simp only [Spec.quad, _root_.dotProduct, mulVec, Finset.mul_sum, of_apply]
  exact Finset.sum_congr rfl fun i _ => Finset.sum_congr rfl fun j _ => by ring

/-- Exact eigenvalues of a positive definite matrix are positive. -/
theorem eig_pos {eig : Eig ℝ n} (he : eig.Exact) {L : Fin n → Fin n → ℝ} (hL : Spec.PosDef (Spec.symmOf L)) (i : Fin n) : 0 < (eig L).1 i := by
  obtain ⟨h1, h2⟩ := he L hL
  set B := Matrix.of (eig L).2 with hB
  have hx : B *ᵥ Pi.single i 1 ≠ 0 := by
    intro h0
    have : Bᵀ *ᵥ (B *ᵥ Pi.single i 1) = Pi.single i 1 := by rw [mulVec_mulVec, h1, one_mulVec]
    rw [h0, mulVec_zero] at this
    have := congrFun this i
    simp at this
  have h3 := hL.2 _ hx
  rw [quad_eq, h2] at h3
  have h4 : (B * diagonal (eig L).1 * Bᵀ) *ᵥ (B *ᵥ Pi.single i 1) = B *ᵥ (diagonal (eig L).1 *ᵥ Pi.single i 1) := by
    rw [mulVec_mulVec, Matrix.mul_assoc, h1, Matrix.mul_one, mulVec_mulVec]
  rw [h4, dotProduct_mulVec, vecMul_mulVec, h1] at h3
  simpa using h3

theorem prepare_exact {eig : Eig ℝ n} (he : eig.Exact) (hpd : p.diagonalCov = 0) (hmod : p.modulo ≤ 1) {s : Cma G n} (hi : s.EigInv) (hC : Spec.PosDef (Spec.symmOf s.C)) :
    (s.prepare eig p).EigenExact ∧ (s.prepare eig p).eigenUptodate = true ∧ (s.prepare eig p).genOfEigen ≤ s.gen ∧
    (s.state = 1 → (s.prepare eig p).genOfEigen = s.genOfEigen) := by
  unfold Cma.prepare
  by_cases hu : s.eigenUptodate = true
  · rw [if_pos hu]
    exact ⟨hi.exact hu, hu, hi.le, fun _ => rfl⟩
  · rw [if_neg hu]
    rw [Bool.not_eq_true] at hu
    have hg := hi.stale hu
    have hfd : s.flgdiag p = false := flgdiag_false hpd (by omega)
    rw [hfd]
    simp only [Bool.false_eq_true, if_false]
    unfold Cma.updateEigen
    rw [hu]
    simp only [Bool.false_eq_true, if_false]
    have hlt : Arith.lt (lit (s.gen : ℚ) : ℝ) (lit (s.genOfEigen : ℚ) + p.modulo) = false := by
      simp only [lt_real, lit_real, decide_eq_false_iff_not, not_lt]
      push_cast
      have : ((s.genOfEigen + 1 : Nat) : ℝ) ≤ s.gen := by exact_mod_cast hg
      push_cast at this
      linarith
    rw [hlt]
    simp only [Bool.false_eq_true, if_false]
    obtain ⟨h1, h2⟩ := he s.C hC
    have hpos := eig_pos he hC
    refine ⟨⟨h1, fun i => Real.sqrt_pos.2 (hpos i), ?_⟩, by trivial, le_rfl, fun h1 => ?_⟩
    · refine h2.trans ?_
      congr 3
      funext i
      exact (Real.sq_sqrt (hpos i).le).symm
    · have := (hi.sampled h1).2
      rw [hu] at this
      cases this

theorem EigenExact_same {s t : Cma G n} (hB : t.B = s.B) (hD : t.D = s.D) (hC : t.C = s.C) : t.EigenExact ↔ s.EigenExact := by
  unfold Cma.EigenExact
  rw [hB, hD, hC]

theorem adaptC_eigen (t : Cma G n) (h : Bool) : (t.adaptC p h).eigenUptodate = (if Arith.eq p.ccov (lit 0) then t.eigenUptodate else false) ∧
    (t.adaptC p h).genOfEigen = t.genOfEigen ∧ (t.adaptC p h).B = t.B ∧ (t.adaptC p h).D = t.D := by
  unfold Cma.adaptC
  split <;> exact ⟨rfl, rfl, rfl, rfl⟩

theorem call_eig {eig : Eig ℝ n} (he : eig.Exact) (hn : 1 ≤ n) (hp : CmaPar.make ℝ n opt modulo = .ok p) (hmod : p.modulo ≤ 1) (b : Bounds ℝ n) (mn : Bool) {s : Cma G n}
    (hi : s.EigInv) (hinv : s.Inv p) (c : CmaCall ℝ n) : (s.call b mn eig p c).1.EigInv ∧
      ∀ tr, c = .sample tr → (s.call b mn eig p c).1.EigenExact := by
  obtain ⟨q1, q2, q3, q4, q5, q6, q7, q8, q9, q10, q11, q12, q13, q14, q15, q16, q17, q18, q19, q20⟩ := C51_parameters n hn opt modulo p hp
  cases c with
  | sample tr =>
    obtain ⟨h1, h2, h3, h4⟩ := s.sample_same tr b eig p
    obtain ⟨g1, g2, g3, g4⟩ := prepare_exact he q20 hmod hi hinv.posDef
    have hsame : (s.samplePopulation eig p).SameE (s.sample tr b eig p).1 := Cma.boundedLoop_same tr b (List.range p.lambda) _
    have hgE : (s.sample tr b eig p).1.genOfEigen = (s.prepare eig p).genOfEigen := hsame.genE
    have hex : (s.sample tr b eig p).1.EigenExact := (EigenExact_same (t := (s.sample tr b eig p).1) (s := s.prepare eig p) hsame.B hsame.D hsame.C).2 g1
    have hup : (s.sample tr b eig p).1.eigenUptodate = true := hsame.up.trans g2
    have hle : (s.sample tr b eig p).1.genOfEigen + 1 ≤ (s.sample tr b eig p).1.gen := by
      rw [hgE, h4]
      split
      · omega
      · rename_i hne
        by_cases hs1 : s.state = 1
        · rw [g4 hs1]; exact (hi.sampled hs1).1
        · rcases hi.phase with h | h | h
          · exact absurd h hs1
          · exact absurd (.inl h) hne
          · exact absurd (.inr h) hne
    have hle' : (s.sample tr b eig p).1.genOfEigen ≤ (s.sample tr b eig p).1.gen := by omega
    have : (s.sample tr b eig p).1.EigInv :=
      ⟨fun _ => hex, fun hh => absurd (hup.symm.trans hh) (by simp), hle', fun _ => ⟨hle, hup⟩, fun _ => hup, .inl h2⟩
    exact ⟨this, fun _ _ => hex⟩
  | update fs =>
    refine ⟨?_, fun tr h => by cases h⟩
    show (s.update p mn fs).1.EigInv
    rcases s.update_cases p mn fs with ⟨hst, -, h0⟩ | ⟨-, h0⟩
    · rw [h0]
      set r := s.rank p (if mn then fs else fs.map Dbl.neg)
      obtain ⟨e1, e2, e3, e4⟩ := adaptC_eigen (p := p) (r.paths p) ((r.paths p).hsig p)
      have hne : Arith.eq p.ccov (lit 0) = false := by simp [q14.ne']
      rw [hne] at e1
      simp only [Bool.false_eq_true, if_false] at e1
      have hup : (r.adapt p).eigenUptodate = false := e1
      have hgE : (r.adapt p).genOfEigen = s.genOfEigen := e2
      obtain ⟨a1, a2, -⟩ := Cma.adapt_fields p r
      have hg : (r.adapt p).gen = s.gen := a1
      have := (hi.sampled hst).1
      exact ⟨fun hh => absurd (hup.symm.trans hh) (by simp), fun _ => by rw [hgE, hg]; exact this, by rw [hgE, hg]; omega,
        fun hh => absurd (a2.symm.trans hh) (by simp), fun hh => absurd (hg.symm.trans hh) (by omega), .inr (.inl a2)⟩
    · rw [h0]; exact hi

theorem init_eig (hn : 1 ≤ n) (m std : Fin n → ℝ) (hstd : ∀ i, 0 < std i) (e : G.St) : (Cma.init p m std e).EigInv := by
  have : Nonempty (Fin n) := ⟨⟨0, by omega⟩⟩
  have hn' : (0 : ℝ) < n := by exact_mod_cast hn
  have htr : 0 < ∑ i, std i * std i := Finset.sum_pos (fun i _ => mul_pos (hstd i) (hstd i)) Finset.univ_nonempty
  have hB : Matrix.of (Cma.init p m std e).B = (1 : Matrix (Fin n) (Fin n) ℝ) := by
    funext i j
    show (if i = j then lit 1 else lit 0) = _
    rw [Matrix.one_apply]
    simp
  have hD : ∀ i, (Cma.init p m std e).D i = std i * Real.sqrt (n / ∑ i, std i * std i) := by
    intro i
    simp only [Cma.init, sumFin_real, sqrt_real, lit_real, Rat.cast_natCast]
  refine ⟨fun _ => ⟨?_, fun i => ?_, ?_⟩, fun h => (by cases h), le_rfl, fun h => (by cases h), fun _ => rfl, .inr (.inr rfl)⟩
  · rw [hB]; simp
  · rw [hD]; exact mul_pos (hstd i) (Real.sqrt_pos.2 (div_pos hn' htr))
  · rw [hB, Matrix.one_mul, transpose_one, Matrix.mul_one]
    funext i j
    rw [diagonal_apply]
    show Spec.symmOf _ i j = _
    unfold Spec.symmOf Cma.init
    simp only [sumFin_real, sqrt_real, lit_real, Rat.cast_zero, Rat.cast_natCast]
    by_cases hij : i = j
    · subst hij; simp [pow_two]
    · simp [hij, Ne.symm hij]

/-- **C78.** Exact arithmetic. If the eigenvalue decomposition is exact and made in every generation (`update_eigen_modulo` at most 1), then
after every `sample_population` call `C = B D^2 B^T` with orthogonal `B` and positive `D`, whatever was called before. -/
theorem C78_eigensystem {eig : Eig ℝ n} (he : eig.Exact) (hn : 1 ≤ n) (hp : CmaPar.make ℝ n opt modulo = .ok p) (hmod : p.modulo ≤ 1) (m std : Fin n → ℝ)
    (hstd : ∀ i, 0 < std i) (e : G.St) (b : Bounds ℝ n) (minimize : Bool) {cs : List (CmaCall ℝ n × Res Unit)} {s : Cma G n}
    (h : Cma.Calls b minimize eig p (Cma.init p m std e) cs s) (tr : (Fin n → ℝ) → Fin n → ℝ) :
    let t := (s.sample tr b eig p).1
    (Matrix.of t.B)ᵀ * Matrix.of t.B = 1 ∧ (∀ i, 0 < t.D i) ∧
    Matrix.of (Spec.symmOf t.C) = Matrix.of t.B * diagonal (fun i => t.D i ^ 2) * (Matrix.of t.B)ᵀ := by
  have hi : s.EigInv := by
    have hall : s.EigInv ∧ s.Inv p := by
      induction h with
      | nil => exact ⟨init_eig hn m std hstd e, init_inv hn m std hstd e⟩
      | snoc h c ih => exact ⟨(call_eig he hn hp hmod b minimize ih.1 ih.2 c).1, call_inv hn hp b minimize eig ih.2 c⟩
    exact hall.1
  have hinv := calls_inv hn hp b minimize eig (init_inv hn m std hstd e) h
  exact (call_eig he hn hp hmod b minimize hi hinv (.sample tr)).2 tr rfl

theorem invSqrt_sq {s : Cma G n} (h : s.EigenExact) : s.invSqrt * s.invSqrt = (Matrix.of (Spec.symmOf s.C))⁻¹ := by
  obtain ⟨h1, h2, h3⟩ := h
  set B := Matrix.of s.B with hB
  have h4 : B * Bᵀ = 1 := mul_eq_one_comm.1 h1
  have e1 : s.invSqrt * s.invSqrt = B * diagonal (fun i => (s.D i ^ 2)⁻¹) * Bᵀ := by
    show B * diagonal _ * Bᵀ * (B * diagonal _ * Bᵀ) = _
    have : B * diagonal (fun i => (s.D i)⁻¹) * Bᵀ * (B * diagonal (fun i => (s.D i)⁻¹) * Bᵀ) =
        B * (diagonal (fun i => (s.D i)⁻¹) * (Bᵀ * B) * diagonal (fun i => (s.D i)⁻¹)) * Bᵀ := by simp only [Matrix.mul_assoc]
    rw [this, h1, Matrix.mul_one, diagonal_mul_diagonal]
    congr 3
    funext i
    rw [← mul_inv, pow_two]
  rw [e1]
  symm
  refine inv_eq_right_inv ?_
  rw [h3]
  have : B * diagonal (fun i => s.D i ^ 2) * Bᵀ * (B * diagonal (fun i => (s.D i ^ 2)⁻¹) * Bᵀ) =
      B * (diagonal (fun i => s.D i ^ 2) * (Bᵀ * B) * diagonal (fun i => (s.D i ^ 2)⁻¹)) * Bᵀ := by simp only [Matrix.mul_assoc]
  rw [this, h1, Matrix.mul_one, diagonal_mul_diagonal]
  have : (fun i => s.D i ^ 2 * (s.D i ^ 2)⁻¹) = fun _ : Fin n => (1 : ℝ) := by
    funext i
    exact mul_inv_cancel₀ (pow_ne_zero 2 (h2 i).ne')
  rw [this, diagonal_one, Matrix.mul_one, h4]

/-- **C78.** So the matrix used in C76 is an inverse square root of the covariance matrix, and a point made of the Gaussian numbers `z` is at the
Mahalanobis distance `sigma |z|` from the mean: its density is that of the normal distribution with covariance `sigma^2 C`. -/
theorem C78_mahalanobis {s : Cma G n} (h1 : (Matrix.of s.B)ᵀ * Matrix.of s.B = 1) (h2 : ∀ i, 0 < s.D i)
    (h3 : Matrix.of (Spec.symmOf s.C) = Matrix.of s.B * diagonal (fun i => s.D i ^ 2) * (Matrix.of s.B)ᵀ) (z : Fin n → ℝ) :
    s.invSqrt * s.invSqrt = (Matrix.of (Spec.symmOf s.C))⁻¹ ∧
    let d := s.sigma • (Matrix.of s.B *ᵥ (diagonal s.D *ᵥ z))
    d ⬝ᵥ ((Matrix.of (Spec.symmOf s.C))⁻¹ *ᵥ d) = s.sigma ^ 2 * (z ⬝ᵥ z) := by
  refine ⟨invSqrt_sq ⟨h1, h2, h3⟩, ?_⟩
  rw [← invSqrt_sq ⟨h1, h2, h3⟩]
  dsimp only
  set B := Matrix.of s.B with hB
  have e1 : s.invSqrt *ᵥ (B *ᵥ (diagonal s.D *ᵥ z)) = B *ᵥ z := by
    show (B * diagonal _ * Bᵀ) *ᵥ _ = _
    rw [mulVec_mulVec, mulVec_mulVec]
    have : B * diagonal (fun i => (s.D i)⁻¹) * Bᵀ * B * diagonal s.D = B * (diagonal (fun i => (s.D i)⁻¹) * (Bᵀ * B) * diagonal s.D) := by
      simp only [Matrix.mul_assoc]
    rw [this, h1, Matrix.mul_one, diagonal_mul_diagonal]
    have : (fun i => (s.D i)⁻¹ * s.D i) = fun _ : Fin n => (1 : ℝ) := by
      funext i
      exact inv_mul_cancel₀ (h2 i).ne'
    rw [this, diagonal_one, Matrix.mul_one]
  have e2 : (s.invSqrt)ᵀ = s.invSqrt := by
    unfold Cma.invSqrt
    rw [transpose_mul, transpose_mul, transpose_transpose, diagonal_transpose, Matrix.mul_assoc]
  rw [mulVec_smul, smul_dotProduct, dotProduct_smul, ← mulVec_mulVec, dotProduct_mulVec, ← mulVec_transpose, e2, e1, dotProduct_mulVec, vecMul_mulVec, h1, vecMul_one]
  simp only [smul_eq_mul]
  ring

/-- Exact decompositions exist. -/
theorem exactEig_exists (n : Nat) : ∃ eig : Eig ℝ n, eig.Exact := by
  classical
  refine ⟨fun L => if h : (Matrix.of (Spec.symmOf L)).IsHermitian then (h.eigenvalues, fun i j => (h.eigenvectorUnitary : Matrix (Fin n) (Fin n) ℝ) i j) else
    (fun _ => 0, fun _ _ => 0), ?_⟩
  intro L hL
  have h : (Matrix.of (Spec.symmOf L)).IsHermitian := by
    refine Matrix.ext fun i j => ?_
    simp [conjTranspose_apply, symmOf_symm L i j]
  simp only [dif_pos h]
  set U : Matrix (Fin n) (Fin n) ℝ := (h.eigenvectorUnitary : Matrix (Fin n) (Fin n) ℝ) with hU
  have hof : (Matrix.of fun i j => U i j) = U := rfl
  have hst : star U = Uᵀ := by
    refine Matrix.ext fun i j => ?_
    rw [star_apply, transpose_apply, star_trivial]
  have hu := h.eigenvectorUnitary.2
  rw [mem_unitaryGroup_iff', ← hU, hst] at hu
  rw [hof]
  refine ⟨hu, ?_⟩
  have := h.spectral_theorem
  rw [Unitary.conjStarAlgAut_apply] at this
  refine this.trans ?_
  rw [← hU, hst]
  rfl

end

end Spot

namespace Spot

section
variable {n : Nat} {G : GaussSrc ℝ} {opt : Int} {modulo : ℝ} {p : CmaPar ℝ}

/-- A weighted average is between bounds of the values. -/
theorem weighted_mem {w : List ℝ} (hw : ∀ x ∈ w, 0 < x) (h1 : w.sum = 1) (f : Nat → ℝ) (lo hi : ℝ) (hf : ∀ k < w.length, lo ≤ f k ∧ f k ≤ hi) :
    lo ≤ ∑ k ∈ Finset.range w.length, w.getD k 0 * f k ∧ ∑ k ∈ Finset.range w.length, w.getD k 0 * f k ≤ hi := by
  have hs : ∑ k ∈ Finset.range w.length, w.getD k 0 = 1 := by
    rw [← h1]
    have : w = (List.range w.length).map fun k => w.getD k 0 := by
      apply List.ext_getElem
      · simp
      · intro k hk _
        simp [List.getElem?_eq_getElem hk]
    conv_rhs => rw [this]
    rfl
  have hpos : ∀ k ∈ Finset.range w.length, 0 ≤ w.getD k 0 := by
    intro k hk
    have hk := Finset.mem_range.1 hk
    rw [List.getD_eq_getElem?_getD, List.getElem?_eq_getElem hk, Option.getD_some]
    exact (hw _ (List.getElem_mem hk)).le
  constructor
  · calc lo = ∑ k ∈ Finset.range w.length, w.getD k 0 * lo := by rw [← Finset.sum_mul, hs, one_mul]
      _ ≤ _ := Finset.sum_le_sum fun k hk => mul_le_mul_of_nonneg_left (hf k (Finset.mem_range.1 hk)).1 (hpos k hk)
  · calc _ ≤ ∑ k ∈ Finset.range w.length, w.getD k 0 * hi :=
          Finset.sum_le_sum fun k hk => mul_le_mul_of_nonneg_left (hf k (Finset.mem_range.1 hk)).2 (hpos k hk)
      _ = hi := by rw [← Finset.sum_mul, hs, one_mul]

/-- **C77.** Exact arithmetic. Without boundary transformer the mean of the distribution never leaves the bounds, if it starts within
them: whatever the fitnesses and random numbers are, and in every state that can be reached by `sample_population` and `update_distribution`. -/
theorem C77_mean_within_bounds (hn : 1 ≤ n) (hp : CmaPar.make ℝ n opt modulo = .ok p) (m std : Fin n → ℝ) (hstd : ∀ i, 0 < std i) (e : G.St)
    (b : Bounds ℝ n) (hb : ∀ i, b.lo i ≤ m i ∧ m i ≤ b.hi i) (minimize : Bool) (eig : Eig ℝ n) {cs : List (CmaCall ℝ n × Res Unit)} {s : Cma G n}
    (h : Cma.Calls b minimize eig p (Cma.init p m std e) cs s) (htr : ∀ tr r, (CmaCall.sample tr, r) ∈ cs → tr = id) (i : Fin n) :
    b.lo i ≤ s.mean i ∧ s.mean i ≤ b.hi i := by
  obtain ⟨q1, q2, q3, q4, q5, q6, q7, q8, q9, q10, q11, q12, q13, q14, q15, q16, q17, q18, q19, q20⟩ := C51_parameters n hn opt modulo p hp
  have key : (∀ i, b.lo i ≤ s.mean i ∧ s.mean i ≤ b.hi i) ∧ (s.state = 1 → ∀ y ∈ s.pop, ∀ i, b.lo i ≤ y i ∧ y i ≤ b.hi i) ∧ s.Shape p ∧ s.Inv p := by
    induction h with
    | nil =>
      exact ⟨hb, fun h => (by cases h), ⟨by simp [Cma.init], by simp [Cma.init], fun _ => ⟨rfl, rfl⟩⟩, init_inv hn m std hstd e⟩
    | @snoc cs s h c ih =>
      obtain ⟨i1, i2, i3, i4⟩ := ih (fun tr r hr => htr tr r (List.mem_append_left _ hr))
      refine ⟨?_, ?_, call_shape b minimize eig i3 i4.gen c, call_inv hn hp b minimize eig i4 c⟩
      · cases c with
        | sample tr =>
          intro i
          show b.lo i ≤ (s.sample tr b eig p).1.mean i ∧ (s.sample tr b eig p).1.mean i ≤ b.hi i
          rw [(s.sample_same tr b eig p).1.mean]
          exact i1 i
        | update fs =>
          intro i
          show b.lo i ≤ (s.update p minimize fs).1.mean i ∧ (s.update p minimize fs).1.mean i ≤ b.hi i
          rcases s.update_cases p minimize fs with ⟨hst, hfs, h0⟩ | ⟨-, h0⟩
          · rw [h0]
            set gs := if minimize then fs else fs.map Dbl.neg with hgs
            have hgl : gs.length = p.lambda := by rw [hgs]; split <;> simp [hfs]
            obtain ⟨-, -, a3, -⟩ := Cma.adapt_fields p (s.rank p gs)
            rw [a3]
            unfold Cma.newMean
            rw [sumLoop_real, ← q4]
            simp only [lit_real, Rat.cast_zero]
            refine weighted_mem q5 q6 _ _ _ fun k hk => ?_
            obtain ⟨hperm, -⟩ := C52_ranking gs s.index (by rw [i3.index, hgl])
            rw [hgl] at hperm
            have hol : (sortedIndex gs s.index p.lambda).length = p.lambda := by rw [hperm.length_eq, List.length_range]
            have hk' : k < (sortedIndex gs s.index p.lambda).length := by rw [hol]; omega
            have hmem := List.mem_range.1 (hperm.mem_iff.1 (List.getElem_mem hk'))
            have hr : (s.rank p gs).ranked k = s.pop[(sortedIndex gs s.index p.lambda)[k]]'(by rw [i3.pop]; exact hmem) := by
              show s.pop.getD ((sortedIndex gs s.index p.lambda).getD k 0) _ = _
              rw [List.getD_eq_getElem?_getD (l := sortedIndex _ _ _), List.getElem?_eq_getElem hk', Option.getD_some, List.getD_eq_getElem?_getD,
                List.getElem?_eq_getElem (by rw [i3.pop]; exact hmem), Option.getD_some]
            rw [hr]
            exact i2 hst _ (List.getElem_mem _) i
          · rw [h0]; exact i1 i
      · cases c with
        | sample tr =>
          intro _ y hy i
          change y ∈ (s.sample tr b eig p).1.pop at hy
          have htr' : tr = id := htr tr (s.call b minimize eig p (.sample tr)).2 (by simp)
          obtain ⟨h1, h2, h3⟩ := sample_spec (K := ℝ) (fun a => by simp) (fun h => by simpa using h) tr b (fun i => by
            simpa using (hb i).1.trans (hb i).2) eig p s
          obtain ⟨k, hk⟩ := List.mem_iff_getElem?.1 hy
          have hkl : k < p.lambda := by
            rw [← (s.sample_same tr b eig p).2.2.1]; exact (List.getElem?_eq_some_iff.1 hk).1
          have hx := List.getElem?_eq_getElem (l := (s.sample tr b eig p).2) (i := k) (by rw [h1]; exact hkl)
          obtain ⟨hf, y', hy', hxy⟩ := h2 k _ hx
          rw [hk, Option.some.injEq] at hy'
          subst hy'
          have hxy' : (s.sample tr b eig p).2[k]'(by rw [h1]; exact hkl) = y := by
            rcases hxy with hh | hh
            · rw [hh, htr']; rfl
            · exact hh
          rw [hxy'] at hf
          have := (feasible_iff b y).1 hf i
          simpa using this
        | update fs =>
          intro hst' y hy
          change (s.update p minimize fs).1.state = 1 at hst'
          change y ∈ (s.update p minimize fs).1.pop at hy
          rcases s.update_cases p minimize fs with ⟨hst, hfs, h0⟩ | ⟨-, h0⟩
          · rw [h0, (Cma.adapt_fields p _).2.1] at hst'
            cases hst'
          · rw [h0] at hst' hy
            exact i2 hst' y hy
  exact key.1 i

end

end Spot
