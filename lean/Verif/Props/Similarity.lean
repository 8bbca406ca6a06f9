import Verif.Model.Similarity
import Verif.Props.Tracking
import Verif.Props.MathTools
import Verif.Lemmas.CmaNan

/-! # C89: `similarity_condition` -/

namespace Spot

/-- The distance the condition uses: the squared differences divided by the stds. -/
noncomputable def simDist [Libm] (point std q : Pt) : Dbl := match normDist point q std with
  | .ok d => d
  | _ => .nan

theorem normDist_ok {K : Type} [Arith K] {a b var : List K} (h1 : a.length = b.length) (h2 : b.length = var.length) : ∃ d, normDist a b var = .ok d :=
  ⟨_, dif_pos ⟨h1, h2⟩⟩

theorem simLoop_spec [Libm] {point std : Pt} (hs : point.length = std.length) : ∀ (qs : List Pt) (i : Nat) (c : Similarity), (∀ q ∈ qs, q.length = point.length) →
    i + qs.length ≤ c.similarities.length →
    ∃ c' b, Similarity.loop point std c i qs = (c', .ok b) ∧ c'.points = c.points ∧ c'.minSteps = c.minSteps ∧ c'.minDistance = c.minDistance ∧
      c'.similarities.length = c.similarities.length ∧
      (b = false → c'.idx = c.idx ∧ ∀ q ∈ qs, Dbl.lt (simDist point std q) c.minDistance = false) ∧
      (b = true → ∃ k q, qs[k]? = some q ∧ c'.idx = some (i + k) ∧ Dbl.lt (simDist point std q) c.minDistance = true ∧ c'.similarities[i + k]? = some (simDist point std q) ∧
        ∀ k' < k, ∀ q', qs[k']? = some q' → Dbl.lt (simDist point std q') c.minDistance = false)
  | [], i, c, _, _ => ⟨c, false, rfl, rfl, rfl, rfl, rfl, by simp, by simp⟩
  | q :: qs, i, c, hl, hc => by
    obtain ⟨d, hd⟩ := normDist_ok (K := Dbl) (a := point) (b := q) (var := std) (hl q (by simp)).symm ((hl q (by simp)).trans hs)
    have hsd : simDist point std q = d := by unfold simDist; rw [hd]
    unfold Similarity.loop
    rw [hd]
    dsimp only
    simp only [List.length_cons] at hc
    by_cases ht : Dbl.lt d c.minDistance = true
    · rw [if_pos ht]
      refine ⟨_, true, rfl, rfl, rfl, rfl, by simp, by simp, fun _ => ⟨0, q, rfl, rfl, by rw [hsd]; exact ht, ?_, by simp⟩⟩
      simp only [Nat.add_zero]
      rw [hsd, List.getElem?_set_self (by omega)]
    · rw [if_neg ht]
      obtain ⟨c', b, g0, g1, g2, g3, g4, g5, g6⟩ := simLoop_spec hs qs (i + 1) { c with similarities := c.similarities.set i d } (fun q hq => hl q (by simp [hq])) (by simp; omega)
      have ht' : Dbl.lt (simDist point std q) c.minDistance = false := by rw [hsd]; simpa using ht
      refine ⟨c', b, g0, g1, g2, g3, by rw [g4]; simp, ?_, ?_⟩
      · intro hb
        refine ⟨(g5 hb).1, ?_⟩
        intro q' hq'
        rcases List.mem_cons.1 hq' with rfl | hq'
        · exact ht'
        · exact (g5 hb).2 q' hq'
      · intro hb
        obtain ⟨k, q1, a1, a2, a3, a4, a5⟩ := g6 hb
        have e : i + (k + 1) = i + 1 + k := by omega
        refine ⟨k + 1, q1, by simpa using a1, by rw [e]; exact a2, a3, by rw [e]; exact a4, ?_⟩
        intro k' hk' q' hq'
        cases k' with
        | zero =>
          simp only [List.getElem?_cons_zero, Option.some.injEq] at hq'
          rw [← hq']
          exact ht'
        | succ k' => exact a5 k' (by omega) q' (by simpa using hq')

/-- **C89.** With CMA-ES and points of the right size: before `min_steps` steps the condition is not met; from then on it is met if and only if one of the points is closer than `min_distance` to the best
point of the last step, and then `similar_idx` is the index of the first such point and `similarities` there is the distance. Otherwise `similar_idx` is left as it was. -/
theorem C89_fires [Libm] (c : Similarity) (steps : Nat) (point std : Pt) (hs : point.length = std.length) (hp : ∀ q ∈ c.points, q.length = point.length) (h0 : 0 ≤ c.minSteps) :
    ∃ c' b, c.test true steps point std = (c', .ok b) ∧ c'.points = c.points ∧ c'.minSteps = c.minSteps ∧ c'.minDistance = c.minDistance ∧
      (b = true ↔ c.minSteps ≤ steps ∧ ∃ q ∈ c.points, Dbl.lt (simDist point std q) c.minDistance = true) ∧
      (b = false → c'.idx = c.idx) ∧
      (b = true → ∃ (k : Nat) (q : Pt), c.points[k]? = some q ∧ c'.idx = some k ∧ Dbl.lt (simDist point std q) c.minDistance = true ∧ c'.similarities[k]? = some (simDist point std q) ∧
        ∀ k' < k, ∀ q', c.points[k']? = some q' → Dbl.lt (simDist point std q') c.minDistance = false) := by
  have hconv : c.minStepsConverted = c.minSteps.toNat := by
    unfold Similarity.minStepsConverted
    rw [if_neg (by omega)]
  unfold Similarity.test
  rw [hconv]
  by_cases h1 : c.minSteps.toNat ≤ steps
  · rw [if_pos h1]
    dsimp only
    rw [if_pos rfl]
    obtain ⟨c', b, g0, g1, g2, g3, g4, g5, g6⟩ := simLoop_spec (point := point) (std := std) hs c.points 0
      { c with similarities := (c.similarities ++ List.replicate (c.points.length - c.similarities.length) (Dbl.fin 0)).take c.points.length } hp (by
        simp only [List.length_take, List.length_append, List.length_replicate]
        omega)
    refine ⟨c', b, g0, g1, g2, g3, ?_, fun hb => (g5 hb).1, ?_⟩
    · constructor
      · intro hb
        obtain ⟨k, q, a1, -, a3, -⟩ := g6 hb
        exact ⟨by omega, q, List.mem_of_getElem? a1, a3⟩
      · rintro ⟨-, q, hq, hd⟩
        cases b with
        | true => rfl
        | false => rw [(g5 rfl).2 q hq] at hd; cases hd
    · intro hb
      obtain ⟨k, q, a1, a2, a3, a4, a5⟩ := g6 hb
      simp only [Nat.zero_add] at a2 a4
      exact ⟨k, q, a1, a2, a3, a4, a5⟩
  · rw [if_neg h1]
    refine ⟨c, false, rfl, rfl, rfl, rfl, ?_, fun _ => rfl, by simp⟩
    simp only [Bool.false_eq_true, false_iff, not_and]
    intro h
    omega

/-- **C89.** With any other optimizer the condition throws as soon as `min_steps` steps are completed. -/
theorem C89_other_optimizer [Libm] (c : Similarity) (steps : Nat) (point std : Pt) (h0 : 0 ≤ c.minSteps) :
    ((c.test false steps point std).2 = .err ↔ c.minSteps ≤ steps) ∧ ((c.test false steps point std).2 = .ok false ↔ ¬ c.minSteps ≤ steps) := by
  have hconv : c.minStepsConverted = c.minSteps.toNat := by
    unfold Similarity.minStepsConverted
    rw [if_neg (by omega)]
  unfold Similarity.test
  rw [hconv]
  by_cases h1 : c.minSteps.toNat ≤ steps
  · rw [if_pos h1]
    have : c.minSteps ≤ steps := by omega
    simp [this]
  · rw [if_neg h1]
    have : ¬ c.minSteps ≤ steps := by omega
    simp [this]

/-- **C89 (finding).** A negative `min_steps` does not mean "from the first step on": converted to `size_t` it is at least 2^63, and the condition is never met before that many steps. -/
theorem C89_negative_steps [Libm] (c : Similarity) (isCma : Bool) (steps : Nat) (point std : Pt) (h0 : c.minSteps < 0) (hi : -2147483648 ≤ c.minSteps) (hs : steps < 2 ^ 63) :
    c.test isCma steps point std = (c, .ok false) := by
  have hconv : 2 ^ 63 ≤ c.minStepsConverted := by
    unfold Similarity.minStepsConverted
    rw [if_pos h0]
    have : (2 : Int) ^ 64 = 18446744073709551616 := by norm_num
    have : (2 : Nat) ^ 63 = 9223372036854775808 := by norm_num
    omega
  unfold Similarity.test
  rw [if_neg (by omega)]

theorem curPoint_length (E : OptEnv) (info : ObjInfo) (m : Int) (hd : info.dim ≠ 0) (h : List Op) (hv : ∀ o ∈ h, o.Valid info) :
    ((Opt.new info m).after E h).vis.WF info m ∧ ((Opt.new info m).after E h).vis.curPoint.length = info.dim ∧
    ((Opt.new info m).after E h).vis.stepCount = (completed m h).length := by
  have := history_induction (E := E) hd (new_WF info m) (fun h s => s.vis.curPoint.length = info.dim ∧ s.vis.stepCount = (completed m h).length)
    ⟨by simp [Opt.new, Opt.init, Opt.addCond, ObjInfo.dim, Cond.minWindow, SearchPoint.ofInfo], by simp [Opt.new, Opt.init, Opt.addCond, completed, Cond.minWindow]⟩ ?_ h hv
  · exact this
  · intro h s o hw ho ⟨ih1, ih2⟩
    obtain ⟨-, c2, -, -, -, -, c7, -⟩ := core_ext (apply_core E s o hd hw ho)
    rw [c2, c7, completed_append]
    cases o with
    | step i =>
      show (s.vis.stepped E i).curPoint.length = _ ∧ (s.vis.stepped E i).stepCount = _
      rw [completed_step]
      by_cases hf : i.Failed m
      · rw [if_pos hf, stepped_failed E (by rw [hw.maxErr]; exact hf)]
        simp only [List.append_nil]
        cases i.interrupt <;> exact ⟨ih1, ih2⟩
      · rw [if_neg hf]
        obtain ⟨-, -, -, e4, -, e6, -⟩ := stepped_completed E (v := s.vis) (i := i) (by rw [hw.maxErr]; exact hf)
        rw [e4, e6, hw.info_eq]
        exact ⟨(In.bestPt_get ho).2.2, by simp [ih2]⟩
    | addCond c =>
      simp only [Op.onVis]
      split <;> simpa [Vis.setWindow, completed] using ⟨ih1, ih2⟩
    | _ => simpa [completed, Op.onVis, Vis.setWindow] using ⟨ih1, ih2⟩

/-- **C89.** In every history of CMA-ES, the condition is met after a call exactly if at least `min_steps` steps were completed and one of its points is closer than `min_distance` to the current best point, and its
test never throws; points have the size of the objective. -/
theorem C89_in_history [Libm] (E : OptEnv) (info : ObjInfo) (m : Int) (hd : info.dim ≠ 0) (h : List Op) (hv : ∀ o ∈ h, o.Valid info) (c : Similarity)
    (hp : ∀ q ∈ c.points, q.length = info.dim) (h0 : 0 ≤ c.minSteps) :
    let v := ((Opt.new info m).after E h).vis
    ∃ b, (c.asCond.test E v).2 = .ok b ∧ (c.test true v.stepCount v.curPoint (v.info.pars.map ParInfo.std)).2 = .ok b ∧
      (b = true ↔ c.minSteps ≤ (completed m h).length ∧ ∃ q ∈ c.points, Dbl.lt (simDist v.curPoint (info.pars.map ParInfo.std) q) c.minDistance = true) := by
  intro v
  obtain ⟨hw, hl, hsc⟩ := curPoint_length E info m hd h hv
  have hl' : v.curPoint.length = (v.info.pars.map ParInfo.std).length := by
    rw [hl, hw.info_eq]; simp [ObjInfo.dim]
  obtain ⟨c', b, g0, -, -, -, g4, -⟩ := C89_fires c v.stepCount v.curPoint (v.info.pars.map ParInfo.std) hl' (fun q hq => (hp q hq).trans hl.symm) h0
  refine ⟨b, ?_, by rw [g0], ?_⟩
  · show Res.ok _ = _
    simp only [Vis.core]
    rw [g0]
  · rw [g4, hsc, hw.info_eq]

/-! ## The distance -/

/-- **C89 (finding).** The stds are passed where the function expects variances. In exact arithmetic, if points and stds are expressed in another unit (all multiplied by `a`), the distance is multiplied by
`sqrt a`: whether two points count as similar depends on the unit. -/
theorem C89_depends_on_unit {n : Nat} (a : ℝ) (ha : 0 < a) (x y std : Fin n → ℝ) :
    normalizedDistance (fun i => a * x i) (fun i => a * y i) (fun i => a * std i) = Real.sqrt a * normalizedDistance x y std := by
  rw [C63_value, C63_value, ← Real.sqrt_mul ha.le, Finset.mul_sum]
  congr 1
  refine Finset.sum_congr rfl fun i _ => ?_
  by_cases hs : std i = 0
  · simp [hs]
  · field_simp

/-- With variances instead, it would not depend on it. -/
theorem C89_variances_would_not {n : Nat} (a : ℝ) (ha : 0 < a) (x y std : Fin n → ℝ) :
    normalizedDistance (fun i => a * x i) (fun i => a * y i) (fun i => (a * std i) ^ 2) = normalizedDistance x y (fun i => std i ^ 2) := by
  rw [C63_value, C63_value]
  congr 1
  refine Finset.sum_congr rfl fun i _ => ?_
  by_cases hs : std i = 0
  · simp [hs]
  · field_simp

/-- **C89 (finding).** If a parameter has a std of 0 and the same finite value in both points, the distance is NaN (given that `sqrt` of NaN is NaN): the condition is not met, even if the points are equal. -/
theorem C89_zero_std [Libm] (hq : Libm.sqrt .nan = .nan) (point std q : Pt) (h1 : point.length = q.length) (h2 : q.length = std.length) (k : Nat) (x : ℚ)
    (hp : point[k]? = some (.fin x)) (hqk : q[k]? = some (.fin x)) (hs : std[k]? = some (.fin 0)) (d : Dbl) : Dbl.lt (simDist point std q) d = false := by
  obtain ⟨hk, hp⟩ := List.getElem?_eq_some_iff.1 hp
  obtain ⟨hk', hqk⟩ := List.getElem?_eq_some_iff.1 hqk
  obtain ⟨hk'', hs⟩ := List.getElem?_eq_some_iff.1 hs
  have : simDist point std q = .nan := by
    unfold simDist normDist
    rw [dif_pos ⟨h1, h2⟩]
    dsimp only
    unfold normalizedDistance
    rw [sumFin_nan ⟨k, hk⟩]
    · exact hq
    · simp only [List.get_eq_getElem, Fin.val_cast, hp, hqk, hs]
      show Dbl.div (Dbl.mul (Dbl.sub (.fin x) (.fin x)) (Dbl.sub (.fin x) (.fin x))) (.fin 0) = .nan
      have : Dbl.sub (.fin x) (.fin x) = .fin 0 := by
        show Dbl.ofQ (x + -x) = _
        rw [add_neg_cancel]
        decide +kernel
      rw [this]
      decide +kernel
  rw [this]
  cases d <;> rfl

/-- Two coordinates, stds 4 and 1: the point (2, 0) is at distance 1 from the origin (a quarter of a squared std would be 1/4). -/
example : normalizedDistance ![2, 0] ![0, 0] ![(4 : ℝ), 1] = 1 := by
  rw [C63_value, Fin.sum_univ_two]
  norm_num

/-- One metre apart with a std of 1 m is at distance 1; the same in millimetres is at distance sqrt 1000. -/
example : normalizedDistance ![1] ![0] ![(1 : ℝ)] = 1 ∧ normalizedDistance ![1000] ![0] ![(1000 : ℝ)] = Real.sqrt 1000 := by
  constructor <;> rw [C63_value] <;> norm_num

end Spot
