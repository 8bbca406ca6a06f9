import Verif.Props.CmaSampling
import Verif.Props.CmaTotal

/-! # Where the optimizers start, and what MES and EVA sample (C74) -/

namespace Spot

/-- **C74.** Floating point. A new MES or EVA optimizer has the means of the parameters of the objective, the squares of their standard
deviations as variances, and no momentum. -/
theorem C74_starts_at_info [Libm] {R : Rng Dbl} (info : ObjInfo) (e : R.Eng) (k : Fin info.dim) :
    (EsOpt.make info e).dist.mean k = (info.pars.get k).mean ∧ (EsOpt.make info e).dist.var k = Dbl.mul (info.pars.get k).std (info.pars.get k).std ∧
    (EsOpt.make info e).dist.mom k = .fin 0 := by
  refine ⟨rfl, rfl, ?_⟩
  show Dbl.ofQ 0 = _
  decide +kernel

/-- **C74.** Exact arithmetic: `current_std` of a new MES or EVA optimizer is the standard deviation of the parameter. -/
theorem C74_es_std {n : Nat} (m std : Fin n → ℝ) (h : ∀ i, 0 ≤ std i) : (Es.init m std).mean = m ∧ (Es.init m std).std = std := by
  refine ⟨rfl, ?_⟩
  funext i
  show Real.sqrt (squared (std i)) = _
  rw [squared_real, Real.sqrt_sq (h i)]

/-- **C74.** Floating point: a new CMA optimizer has the means of the parameters. -/
theorem C74_cma_mean [Libm] {G : GaussSrc Dbl} (info : ObjInfo) (opt : Int) (modulo : Dbl) (rng : G.St) (p : CmaPar Dbl) (s : CmaOpt G info.dim)
    (h : CmaOpt.make info opt modulo rng = .ok (p, s)) (k : Fin info.dim) : s.cma.mean k = (info.pars.get k).mean := by
  rw [(make_ok h).2.1]; rfl

/-- **C74.** Exact arithmetic: `current_std` of a new CMA optimizer is the standard deviation of the parameter, if one of them is positive. -/
theorem C74_cma_std {n : Nat} {G : GaussSrc ℝ} (p : CmaPar ℝ) (m std : Fin n → ℝ) (e : G.St) (h : ∀ i, 0 ≤ std i) (hpos : ∃ i, 0 < std i) (i : Fin n) :
    (Cma.init p m std e : Cma G n).std i = std i ∧ (Cma.init p m std e : Cma G n).mean i = m i ∧
    ∀ j, i ≠ j → (Cma.init p m std e : Cma G n).C i j = 0 := by
  obtain ⟨i0, hi0⟩ := hpos
  have hn : (0 : ℝ) < n := by exact_mod_cast (by have := i0.2; omega : 0 < n)
  have htr : 0 < ∑ i, std i * std i := Finset.sum_pos' (fun i _ => mul_nonneg (h i) (h i)) ⟨i0, Finset.mem_univ _, mul_pos hi0 hi0⟩
  refine ⟨?_, rfl, fun j hij => ?_⟩
  · unfold Cma.std Cma.init
    simp only [sumFin_real, sqrt_real, lit_real, if_true, Rat.cast_natCast]
    rw [Real.sqrt_mul_self (mul_nonneg (h i) (Real.sqrt_nonneg _))]
    have : Real.sqrt ((∑ i, std i * std i) / n) * Real.sqrt (n / ∑ i, std i * std i) = 1 := by
      rw [← Real.sqrt_mul (div_pos htr hn).le, div_mul_div_cancel₀ hn.ne', div_self htr.ne', Real.sqrt_one]
    calc _ = std i * (Real.sqrt ((∑ i, std i * std i) / n) * Real.sqrt (n / ∑ i, std i * std i)) := by ring
      _ = _ := by rw [this, mul_one]
  · unfold Cma.init
    simp [hij]

/-! ## MES and EVA sampling -/

/-- A standard normal generator: `Mem` is what a distribution object remembers between draws. -/
structure StdNormal (K : Type) where
  Eng : Type
  Mem : Type
  fresh : Mem
  next : Mem → Eng → K × Mem × Eng

/-- `std::normal_distribution` made from it: `mean + stdev * z`. -/
noncomputable def StdNormal.rng (N : StdNormal ℝ) : Rng ℝ where
  Eng := N.Eng
  Dist := ℝ × ℝ × N.Mem
  normal m s := (m, s, N.fresh)
  draw d e := (d.1 + d.2.1 * (N.next d.2.2 e).1, (d.1, d.2.1, (N.next d.2.2 e).2.1), (N.next d.2.2 e).2.2)

section
variable {N : StdNormal ℝ} (S : Set ℝ) (hS : ∀ d e, (N.next d e).1 ∈ S)
include hS

/-- A value of a parameter: drawn and within the bounds, or drawn and clamped. -/
theorem sampleLoop_drawn' (lo hi m s : ℝ) (hb : lo ≤ hi) : ∀ (k : Nat) (mem : N.Mem) (e : N.Eng),
    ∃ z ∈ S, (sampleLoop N.rng lo hi k (m, s, mem) e).1 = max lo (min hi (m + s * z))
  | 0, mem, e => by
    refine ⟨(N.next mem e).1, hS mem e, ?_⟩
    show clamped (m + s * (N.next mem e).1) lo hi = _
    unfold clamped
    simp only [lt_real, decide_eq_true_eq]
    split
    · rw [min_eq_right (by linarith), max_eq_left (by linarith)]
    · split
      · rw [min_eq_left (by linarith), max_eq_right hb]
      · rw [min_eq_right (by linarith), max_eq_right (by linarith)]
  | k + 1, mem, e => by
    by_cases h : (Arith.le lo (m + s * (N.next mem e).1) && Arith.le (m + s * (N.next mem e).1) hi) = true
    · refine ⟨_, hS mem e, (congrArg Prod.fst (if_pos h)).trans ?_⟩
      simp only [le_real, Bool.and_eq_true, decide_eq_true_eq] at h
      rw [min_eq_right h.2, max_eq_right h.1]
      rfl
    · obtain ⟨z, hz, hv⟩ := sampleLoop_drawn' lo hi m s hb k (N.next mem e).2.1 (N.next mem e).2.2
      exact ⟨z, hz, (congrArg Prod.fst (if_neg h)).trans hv⟩

theorem sampleVec_drawn {n : Nat} (b : Bounds ℝ n) (hb : ∀ i, b.lo i ≤ b.hi i) (m s : Fin n → ℝ) : ∀ (is : List (Fin n)) (e : N.Eng),
    List.Forall₂ (fun i v => ∃ z ∈ S, v = max (b.lo i) (min (b.hi i) (m i + s i * z))) is (sampleVec N.rng b m s is e).1
  | [], _ => .nil
  | i :: is, e => by
    exact .cons (sampleLoop_drawn' S hS (b.lo i) (b.hi i) (m i) (s i) (hb i) 100 N.fresh e) (sampleVec_drawn b hb m s is _)

/-- **C74.** Exact arithmetic, a normal distribution that returns `mean + stdev * z` for standard normal numbers `z` in `S`. Each of the `lambda`
individuals of MES and EVA is `mean + offset * momentum + sqrt( variance + momentum^2 ) * z` in every coordinate, clamped to the bounds, where the offset is
the same in all coordinates and itself drawn: `ofs + ofsStd * z0`. (`S` is arbitrary; with `S = {0}`, say, it is `mean + ofs * momentum`.) -/
theorem C74_offspring {n : Nat} (b : Bounds ℝ n) (hb : ∀ i, b.lo i ≤ b.hi i) (ofs ofsStd : ℝ) (lambda : Nat) (s : Es ℝ n) (e : N.Eng) :
    (samplePopulation N.rng b ofs ofsStd lambda s e).1.length = lambda ∧
    ∀ x ∈ (samplePopulation N.rng b ofs ofsStd lambda s e).1, ∃ z0 ∈ S, List.Forall₂ (fun i v => ∃ z ∈ S,
      v = max (b.lo i) (min (b.hi i) (s.mean i + (ofs + ofsStd * z0) * s.mom i + Real.sqrt (s.var i + s.mom i ^ 2) * z))) (List.finRange n) x := by
  unfold samplePopulation
  have key : ∀ (k : Nat) (mem : N.Mem) (e : N.Eng), (sampleLoopPop N.rng b s k (ofs, ofsStd, mem) e).1.length = k ∧
      ∀ x ∈ (sampleLoopPop N.rng b s k (ofs, ofsStd, mem) e).1, ∃ z0 ∈ S, List.Forall₂ (fun i v => ∃ z ∈ S,
        v = max (b.lo i) (min (b.hi i) (s.mean i + (ofs + ofsStd * z0) * s.mom i + Real.sqrt (s.var i + s.mom i ^ 2) * z))) (List.finRange n) x := by
    intro k
    induction k with
    | zero => intro mem e; exact ⟨rfl, fun x hx => by cases hx⟩
    | succ k ih =>
      intro mem e
      obtain ⟨h1, h2⟩ := ih (N.next mem e).2.1 (sampleVec N.rng b (fun i => s.mean i + (ofs + ofsStd * (N.next mem e).1) * s.mom i)
        (fun i => Arith.sqrt (s.var i + squared (s.mom i))) (List.finRange n) (N.next mem e).2.2).2
      have hunf : sampleLoopPop N.rng b s (k + 1) (ofs, ofsStd, mem) e =
        (((sampleVec N.rng b (fun i => s.mean i + (ofs + ofsStd * (N.next mem e).1) * s.mom i)
          (fun i => Arith.sqrt (s.var i + squared (s.mom i))) (List.finRange n) (N.next mem e).2.2).1.map Arith.round8) ::
          (sampleLoopPop N.rng b s k (ofs, ofsStd, (N.next mem e).2.1) (sampleVec N.rng b (fun i => s.mean i + (ofs + ofsStd * (N.next mem e).1) * s.mom i)
          (fun i => Arith.sqrt (s.var i + squared (s.mom i))) (List.finRange n) (N.next mem e).2.2).2).1,
          (sampleLoopPop N.rng b s k (ofs, ofsStd, (N.next mem e).2.1) (sampleVec N.rng b (fun i => s.mean i + (ofs + ofsStd * (N.next mem e).1) * s.mom i)
          (fun i => Arith.sqrt (s.var i + squared (s.mom i))) (List.finRange n) (N.next mem e).2.2).2).2) := rfl
      rw [hunf]
      refine ⟨by rw [List.length_cons, h1], fun x hx => ?_⟩
      rw [List.mem_cons] at hx
      rcases hx with rfl | hx
      · refine ⟨_, hS mem e, ?_⟩
        have hid : ∀ l : List ℝ, l.map Arith.round8 = l := fun l => List.map_id l
        rw [hid]
        have := sampleVec_drawn S hS b hb (fun i => s.mean i + (ofs + ofsStd * (N.next mem e).1) * s.mom i)
          (fun i => Arith.sqrt (s.var i + squared (s.mom i))) (List.finRange n) (N.next mem e).2.2
        simpa only [sqrt_real, squared_real] using this
      · exact h2 x hx
  exact key lambda N.fresh e

end

/-- The hypotheses can be met, and the theorem determines the population if nothing is random: without noise all individuals are the mean plus the momentum. -/
example : ∃ N : StdNormal ℝ, ∃ e : N.Eng, ∀ x ∈ (samplePopulation N.rng (⟨fun _ => -10, fun _ => 10⟩ : Bounds ℝ 2) 1 1 5 ⟨fun _ => 2, fun _ => 1, fun _ => 3⟩ e).1,
    x = [5, 5] := by
  refine ⟨⟨Unit, Unit, (), fun _ _ => (0, (), ())⟩, (), fun x hx => ?_⟩
  obtain ⟨z0, hz0, hf⟩ := (C74_offspring (N := ⟨Unit, Unit, (), fun _ _ => (0, (), ())⟩) {0} (fun _ _ => rfl) (⟨fun _ => -10, fun _ => 10⟩ : Bounds ℝ 2)
    (fun _ => by norm_num) 1 1 5 ⟨fun _ => 2, fun _ => 1, fun _ => 3⟩ ()).2 x hx
  rw [Set.mem_singleton_iff] at hz0
  subst hz0
  simp only [Set.mem_singleton_iff, exists_eq_left, mul_zero, add_zero] at hf
  rw [List.forall₂_iff_get] at hf
  obtain ⟨h1, h2⟩ := hf
  simp only [List.length_finRange] at h1
  match x, h1 with
  | [a, c], _ =>
    have ha := h2 0 (by simp) (by simp)
    have hc := h2 1 (by simp) (by simp)
    simp only [List.get_eq_getElem, List.getElem_cons_zero, List.getElem_cons_succ] at ha hc
    norm_num at ha hc
    rw [ha, hc]

end Spot
