import Verif.Props.EsAffine

/-! # The unit of the parameters matters to MES and EVA (C116) -/

namespace Spot

/-- A generator that returns the given sequence of standard normal numbers; distribution objects remember nothing. -/
noncomputable def listNormal (z : Nat → ℝ) : StdNormal ℝ := ⟨Nat, Unit, (), fun _ k => (z k, (), k + 1)⟩

section
variable {n : Nat} {R : Rng ℝ} {z : Nat → ℝ} {eng : Nat → R.Eng} (hR : ∀ m s k, R.draw (R.normal m s) (eng k) = (m + s * z k, R.normal m s, eng (k + 1)))
include hR

theorem list_parameter (m s lo hi : ℝ) (k : Nat) (h : lo ≤ m + s * z k ∧ m + s * z k ≤ hi) : sampleParameter R m s lo hi (eng k) = (m + s * z k, eng (k + 1)) := by
  unfold sampleParameter
  rw [sampleLoop_succ, hR]
  exact if_pos (by simp [h.1, h.2])

theorem list_vec (b : Bounds ℝ n) (m s : Fin n → ℝ) (h : ∀ i k, b.lo i ≤ m i + s i * z k ∧ m i + s i * z k ≤ b.hi i) : ∀ (is : List (Fin n)) (k : Nat),
    sampleVec R b m s is (eng k) = (is.zipIdx.map fun p => m p.1 + s p.1 * z (k + p.2), eng (k + is.length))
  | [], k => rfl
  | i :: is, k => by
    rw [sampleVec_cons, list_parameter hR (m i) (s i) _ _ k (h i k)]
    dsimp only
    rw [list_vec b m s h is]
    refine Prod.ext ?_ (by show eng (k + 1 + is.length) = eng (k + (is.length + 1)); rw [show k + 1 + is.length = k + (is.length + 1) by omega])
    show _ :: _ = _
    rw [List.zipIdx_cons', List.map_cons, List.map_map]
    congr 1
    refine List.map_congr_left fun p _ => ?_
    show _ = m p.1 + s p.1 * z (k + (p.2 + 1))
    rw [show k + 1 + p.2 = k + (p.2 + 1) by omega]

/-- The draws: an offset for the individual, then one number for each parameter. -/
theorem list_pop (b : Bounds ℝ n) (s : Es ℝ n) (o os : ℝ)
    (h : ∀ i k l, b.lo i ≤ s.mean i + (o + os * z l) * s.mom i + Real.sqrt (s.var i + s.mom i ^ 2) * z k ∧
      s.mean i + (o + os * z l) * s.mom i + Real.sqrt (s.var i + s.mom i ^ 2) * z k ≤ b.hi i) (k : Nat) :
    ∃ pop, samplePopulation R b o os 2 s (eng k) = (pop, eng (k + 1 + n + 1 + n)) ∧ pop.map (vecOf n) =
      [fun i => s.mean i + (o + os * z k) * s.mom i + Real.sqrt (s.var i + s.mom i ^ 2) * z (k + 1 + i),
       fun i => s.mean i + (o + os * z (k + 1 + n)) * s.mom i + Real.sqrt (s.var i + s.mom i ^ 2) * z (k + 1 + n + 1 + i)] := by
  have hv : ∀ l k, sampleVec R b (fun i => s.mean i + (o + os * z l) * s.mom i) (fun i => Arith.sqrt (s.var i + squared (s.mom i))) (List.finRange n) (eng k) =
      ((List.finRange n).zipIdx.map fun p => s.mean p.1 + (o + os * z l) * s.mom p.1 + Real.sqrt (s.var p.1 + s.mom p.1 ^ 2) * z (k + p.2), eng (k + n)) := by
    intro l k
    rw [list_vec hR b _ _ (fun i k => by simpa only [sqrt_real, squared_real] using h i k l)]
    rw [List.length_finRange]
    refine Prod.ext ?_ rfl
    refine List.map_congr_left fun p _ => ?_
    simp only [sqrt_real, squared_real]
  have hx : ∀ l k, vecOf n (((List.finRange n).zipIdx.map fun p => s.mean p.1 + (o + os * z l) * s.mom p.1 + Real.sqrt (s.var p.1 + s.mom p.1 ^ 2) * z (k + p.2)).map Arith.round8) =
      fun i => s.mean i + (o + os * z l) * s.mom i + Real.sqrt (s.var i + s.mom i ^ 2) * z (k + i) := by
    intro l k
    have hid : ∀ l : List ℝ, l.map Arith.round8 = l := fun l => List.map_id l
    rw [hid]
    funext i
    show List.getD _ _ _ = _
    rw [List.getD_eq_getElem?_getD, List.getElem?_map, List.getElem?_zipIdx, List.getElem?_eq_getElem (by rw [List.length_finRange]; exact i.2)]
    simp
  refine ⟨?w, ?_, ?_⟩
  · exact ((List.finRange n).zipIdx.map fun p => s.mean p.1 + (o + os * z k) * s.mom p.1 + Real.sqrt (s.var p.1 + s.mom p.1 ^ 2) * z (k + 1 + p.2)).map Arith.round8 ::
      [((List.finRange n).zipIdx.map fun p => s.mean p.1 + (o + os * z (k + 1 + n)) * s.mom p.1 + Real.sqrt (s.var p.1 + s.mom p.1 ^ 2) * z (k + 1 + n + 1 + p.2)).map Arith.round8]
  · unfold samplePopulation
    rw [sampleLoopPop_succ, sampleIndividual_eq, hR]
    dsimp only
    rw [hv]
    dsimp only
    rw [sampleLoopPop_succ, sampleIndividual_eq, hR]
    dsimp only
    rw [hv]
    rfl
  · rw [List.map_cons, List.map_cons, List.map_nil, hx, hx]

end

/-- The default options. -/
inductive DefaultEs : EsAlg ℝ → Prop
  | mes : DefaultEs (.mes .default)
  | eva : DefaultEs (.eva .default)

/-- Momentum after the first of two generations: a fifth of the standard deviations. The part of `w` along it, if its squared length is above `eps`. -/
noncomputable def along {n : Nat} (eps : ℝ) (std w : Fin n → ℝ) (i : Fin n) : ℝ :=
  if eps < ∑ j, (std j / 5) ^ 2 then std i / 5 * ((∑ j, w j * (std j / 5)) / ∑ j, (std j / 5) ^ 2) else 0

theorem two_orders (info : ObjInfo) : SortedOrder info [.fin 0, .fin 0] [0, 1] := by
  refine ⟨.refl _, fun _ => ?_⟩
  have hb : info.isBetter (.fin 0) (.fin 0) = false := by
    unfold ObjInfo.isBetter
    cases info.minimize <;> decide +kernel
  simp [hb]

theorem update_first {n : Nat} (alg : EsAlg ℝ) (eps : ℝ) (s : Es ℝ n) (x y : Fin n → ℝ) : updateDistribution alg eps 1 s [0, 1] [x, y] = .ok (alg.updateWith eps 1 s [x]) := rfl

theorem selMean_one {n : Nat} (x : Fin n → ℝ) (j : Fin n) : selMean [x] 1 j = x j := by simp [selMean]

theorem selVar_one {n : Nat} (eps : ℝ) (s : Es ℝ n) (x : Fin n → ℝ) (j : Fin n) : selVar eps s [x] 1 j = (x j - projected eps s.mean s.mom x j) ^ 2 := by simp [selVar, squared_real]

/-- Two generations from mean 0, with two individuals of which the first is selected. -/
theorem two_generations {n : Nat} {alg : EsAlg ℝ} (halg : DefaultEs alg) (eps : ℝ) (heps : 0 ≤ eps) (info : ObjInfo) (std : Fin n → ℝ) (hstd : ∀ i, 0 ≤ std i) (z : Nat → ℝ)
    (hz : ∀ k, z k = 0 ∨ z k = 1) (hz1 : ∀ k ≤ 2 * (n + 1), z k = 1) :
    ∃ ps t e', Es.Search (listNormal z).rng ⟨fun i => -10 * std i, fun i => 10 * std i⟩ alg eps 2 1 info (fun _ => .fin 0) (Es.init (fun _ => 0) std) (0 : Nat) ps t e' ∧
      ps.length = 2 ∧ ∀ i, t.var i = 4 / 5 * std i ^ 2 + 1 / 5 *
        (2 / 5 * std i + Real.sqrt 26 / 5 * std i * z (2 * (n + 1) + 1 + i) -
          along eps std (fun i => 2 / 5 * std i + Real.sqrt 26 / 5 * std i * z (2 * (n + 1) + 1 + i)) i) ^ 2 := by
  have hofs : alg.ofs = (1, 1) := by cases halg <;> simp [EsAlg.ofs, MesOpts.default, EvaOpts.default]
  have hR : ∀ m s (k : Nat), (listNormal z).rng.draw ((listNormal z).rng.normal m s) (id k : Nat) = (m + s * z k, (listNormal z).rng.normal m s, (id (k + 1) : Nat)) := fun _ _ _ => rfl
  -- the first generation
  have hs0 : ∀ i, Real.sqrt (squared (std i) + (lit 0 : ℝ) ^ 2) = std i := by
    intro i
    rw [squared_real, lit_real, Rat.cast_zero, zero_pow two_ne_zero, add_zero, Real.sqrt_sq (hstd i)]
  obtain ⟨pop1, p1, q1⟩ := list_pop (R := (listNormal z).rng) (eng := fun k : Nat => k) hR ⟨fun i => -10 * std i, fun i => 10 * std i⟩ (Es.init (fun _ => 0) std) 1 1
    (fun i k l => by
      show _ ≤ 0 + _ * (lit 0 : ℝ) + Real.sqrt (squared (std i) + (lit 0 : ℝ) ^ 2) * z k ∧ 0 + _ * (lit 0 : ℝ) + Real.sqrt (squared (std i) + (lit 0 : ℝ) ^ 2) * z k ≤ _
      rw [hs0, lit_real, Rat.cast_zero]
      have := hstd i
      rcases hz k with h | h <;> rw [h] <;> constructor <;> linarith) 0
  have hx1 : (fun i : Fin n => (Es.init (fun _ => 0) std).mean i + (1 + 1 * z 0) * (Es.init (fun _ => 0) std).mom i +
      Real.sqrt ((Es.init (fun _ => 0) std).var i + (Es.init (fun _ => 0) std).mom i ^ 2) * z (0 + 1 + i)) = std := by
    funext i
    show 0 + _ * (lit 0 : ℝ) + Real.sqrt (squared (std i) + (lit 0 : ℝ) ^ 2) * z (0 + 1 + i) = _
    rw [hs0, lit_real, Rat.cast_zero, hz1 (0 + 1 + i) (by have := i.2; omega)]
    ring
  rw [hx1] at q1
  have hpr : ∀ x, projected eps (Es.init (fun _ => (0 : ℝ)) std).mean (Es.init (fun _ => 0) std).mom x = fun _ => 0 := by
    intro x
    unfold projected
    rw [if_neg]
    · rfl
    · rw [dot_real]
      show ¬ Arith.lt eps (∑ i, (lit 0 : ℝ) * lit 0) = true
      simpa using heps
  let t1 : Es ℝ n := alg.updateWith eps 1 (Es.init (fun _ => 0) std) [std]
  have hvar1 : ∀ i, t1.var i = std i ^ 2 := by
    intro i
    have : t1.var i = upd (squared (std i)) (selVar eps (Es.init (fun _ => 0) std) [std] 1 i) (1 / 5) := by
      cases halg with
      | mes =>
        show (mesUpdateWith _ _ _ _ _).var i = _
        unfold mesUpdateWith
        split <;> simp [MesOpts.default, Es.init]
      | eva => simp [t1, EsAlg.updateWith, evaUpdateWith, EvaOpts.default, Es.init]
    rw [this, selVar_one, hpr, upd, squared_real, lit_real, Rat.cast_one]
    ring
  have hmom1 : ∀ i, t1.mom i = std i / 5 := by
    intro i
    have : t1.mom i = upd 0 (selMean [std] 1 i - 0) (1 / 5) := by
      cases halg with
      | mes =>
        show (mesUpdateWith _ _ _ _ _).mom i = _
        unfold mesUpdateWith
        rw [if_pos (by simp [MesOpts.default])]
        simp [MesOpts.default, Es.init]
      | eva => simp [t1, EsAlg.updateWith, evaUpdateWith, EvaOpts.default, Es.init]
    rw [this, selMean_one, upd]
    ring
  have hmean1 : ∀ i, 0 ≤ t1.mean i ∧ t1.mean i ≤ std i := by
    intro i
    have h0 := hstd i
    have : t1.mean i = std i / 25 ∨ t1.mean i = std i / 5 := by
      cases halg with
      | mes =>
        left
        have e1 : t1.mean i = 0 + 1 / 5 * t1.mom i := by
          show (mesUpdateWith _ _ _ _ _).mean i = _ + _ * (mesUpdateWith _ _ _ _ _).mom i
          unfold mesUpdateWith
          rw [if_pos (by simp [MesOpts.default])]
          simp [MesOpts.default, Es.init]
        rw [e1, hmom1]; ring
      | eva =>
        right
        have e1 : t1.mean i = 0 + 1 / 5 * (selMean [std] 1 i - 0) := by simp [t1, EsAlg.updateWith, evaUpdateWith, EvaOpts.default, Es.init]
        rw [e1, selMean_one]; ring
    rcases this with h | h <;> rw [h] <;> constructor <;> linarith
  -- the second generation
  have h26 : Real.sqrt 26 ≤ 6 := by
    rw [Real.sqrt_le_left (by norm_num)]; norm_num
  have hs1 : ∀ i, Real.sqrt (t1.var i + t1.mom i ^ 2) = Real.sqrt 26 / 5 * std i := by
    intro i
    rw [hvar1, hmom1, show std i ^ 2 + (std i / 5) ^ 2 = 26 * (std i / 5) ^ 2 by ring, Real.sqrt_mul (by norm_num), Real.sqrt_sq (by have := hstd i; positivity)]
    ring
  have hr : 0 ≤ Real.sqrt 26 := Real.sqrt_nonneg _
  obtain ⟨pop2, p2, q2⟩ := list_pop (R := (listNormal z).rng) (eng := fun k : Nat => k) hR ⟨fun i => -10 * std i, fun i => 10 * std i⟩ t1 1 1
    (fun i k l => by
      rw [hs1, hmom1]
      have := hstd i
      obtain ⟨m1, m2⟩ := hmean1 i
      have hp : 0 ≤ Real.sqrt 26 * std i := mul_nonneg hr this
      have hq : Real.sqrt 26 * std i ≤ 6 * std i := mul_le_mul_of_nonneg_right h26 this
      dsimp only
      rcases hz k with h | h <;> rcases hz l with h' | h' <;> rw [h, h'] <;> constructor <;> linarith) (2 * (n + 1))
  refine ⟨[pop1.map (vecOf n)] ++ [pop2.map (vecOf n)], alg.updateWith eps 1 t1 [(pop2.map (vecOf n)).headD fun _ => 0], (2 * (n + 1) + 1 + n + 1 + n : Nat), ?_, rfl, fun i => ?_⟩
  · refine .snoc (.snoc (ps := []) .nil (d' := (2 * (n + 1) : Nat)) (order := [0, 1]) (t' := t1) ?_ ?_ ?_) (order := [0, 1]) ?_ ?_ ?_
    · rw [hofs]
      rw [show 0 + 1 + n + 1 + n = 2 * (n + 1) by omega] at p1
      exact p1
    · have hl : pop1.length = 2 := by have := congrArg List.length q1; rwa [List.length_map] at this
      match pop1, hl with
      | [_, _], _ => exact two_orders info
    · rw [q1]; exact update_first _ _ _ _ _
    · rw [hofs]; exact p2
    · have hl : pop2.length = 2 := by have := congrArg List.length q2; rwa [List.length_map] at this
      match pop2, hl with
      | [_, _], _ => exact two_orders info
    · rw [q2]; exact update_first _ _ _ _ _
  · rw [q2]
    dsimp only [List.headD_cons]
    have hw : ∀ i : Fin n, t1.mean i + (1 + 1 * z (2 * (n + 1))) * t1.mom i + Real.sqrt (t1.var i + t1.mom i ^ 2) * z (2 * (n + 1) + 1 + i) - t1.mean i =
        2 / 5 * std i + Real.sqrt 26 / 5 * std i * z (2 * (n + 1) + 1 + i) := by
      intro i
      rw [hs1, hmom1, hz1 _ le_rfl]; ring
    generalize hy : (fun i : Fin n => t1.mean i + (1 + 1 * z (2 * (n + 1))) * t1.mom i + Real.sqrt (t1.var i + t1.mom i ^ 2) * z (2 * (n + 1) + 1 + i)) = y
    have hw' : ∀ i, y i - t1.mean i = 2 / 5 * std i + Real.sqrt 26 / 5 * std i * z (2 * (n + 1) + 1 + i) := fun i => by rw [← hy]; exact hw i
    have hv : (alg.updateWith eps 1 t1 [y]).var i = upd (t1.var i) (selVar eps t1 [y] 1 i) (1 / 5) := by
      cases halg with
      | mes =>
        show (mesUpdateWith _ _ _ _ _).var i = _
        unfold mesUpdateWith
        split <;> simp [MesOpts.default]
      | eva => simp [EsAlg.updateWith, evaUpdateWith, EvaOpts.default]
    have hp : projected eps t1.mean t1.mom y i = t1.mean i + along eps std (fun i => 2 / 5 * std i + Real.sqrt 26 / 5 * std i * z (2 * (n + 1) + 1 + i)) i := by
      unfold projected along
      have d1 : dotProduct t1.mom t1.mom = ∑ j, (std j / 5) ^ 2 := by rw [dot_real]; exact Finset.sum_congr rfl fun j _ => by rw [hmom1]; ring
      have d2 : dotProduct (fun i => y i - t1.mean i) t1.mom = ∑ j, (2 / 5 * std j + Real.sqrt 26 / 5 * std j * z (2 * (n + 1) + 1 + j)) * (std j / 5) := by
        rw [dot_real]; exact Finset.sum_congr rfl fun j _ => by rw [hmom1, hw']
      rw [d1, d2]
      simp only [lt_real, decide_eq_true_eq]
      split
      · show _ + t1.mom i * _ = _
        rw [hmom1]
      · rw [add_zero]
    rw [hv, selVar_one, hp, hvar1, upd, lit_real, Rat.cast_one, ← hw' i]
    ring

/-- **C116.** The threshold does not adapt to the unit: however small it is (`ample_epsilon` is positive), and whatever the new unit, there is an objective with one parameter
for which the two searches of MES and of EVA, with the default options, have different distributions after two generations. -/
theorem C116_unit {alg : EsAlg ℝ} (halg : DefaultEs alg) (eps : ℝ) (heps : 0 < eps) (a : ℝ) (ha : 0 < a) (ha1 : a ≠ 1) (info : ObjInfo) :
    ∃ (N : StdNormal ℝ) (e : N.Eng) (b : Bounds ℝ 1) (f : (Fin 1 → ℝ) → Dbl) (m std : Fin 1 → ℝ) (ps ps' : List (List (Fin 1 → ℝ))) (t t' : Es ℝ 1) (d d' : N.Eng), 0 < std 0 ∧
      Es.Search N.rng b alg eps 2 1 info f (Es.init m std) e ps t d ∧
      Es.Search N.rng ⟨fun i => a * b.lo i, fun i => a * b.hi i⟩ alg eps 2 1 info f (Es.init (fun i => a * m i) fun i => a * std i) e ps' t' d' ∧
      (∀ x, f (fun i => a * x i) = f x) ∧ ps.length = 2 ∧ ps'.length = 2 ∧ t'.std 0 ≠ a * t.std 0 := by
  -- a standard deviation such that the momentum is above the threshold in one of the units only
  obtain ⟨σ, hσ, hab⟩ : ∃ σ : ℝ, 0 < σ ∧ ((eps < (σ / 5) ^ 2 ∧ ¬ eps < (a * σ / 5) ^ 2) ∨ (¬ eps < (σ / 5) ^ 2 ∧ eps < (a * σ / 5) ^ 2)) := by
    have hs : 0 < Real.sqrt eps := Real.sqrt_pos.2 heps
    have hss : Real.sqrt eps ^ 2 = eps := Real.sq_sqrt heps.le
    rcases lt_or_gt_of_ne ha1 with h | h
    · refine ⟨5 * Real.sqrt eps / a, by positivity, Or.inl ⟨?_, ?_⟩⟩
      · rw [show 5 * Real.sqrt eps / a / 5 = Real.sqrt eps / a by ring, div_pow, hss, lt_div_iff₀ (by positivity)]
        have : a ^ 2 < 1 := by nlinarith
        nlinarith
      · rw [show a * (5 * Real.sqrt eps / a) / 5 = Real.sqrt eps by field_simp, hss]; exact lt_irrefl _
    · refine ⟨5 * Real.sqrt eps, by positivity, Or.inr ⟨?_, ?_⟩⟩
      · rw [show 5 * Real.sqrt eps / 5 = Real.sqrt eps by ring, hss]; exact lt_irrefl _
      · rw [show a * (5 * Real.sqrt eps) / 5 = a * Real.sqrt eps by ring, mul_pow, hss]
        have : 1 < a ^ 2 := by nlinarith
        nlinarith
  obtain ⟨ps, t, d, h1, h2, h3⟩ := two_generations halg eps heps.le info (fun _ : Fin 1 => σ) (fun _ => hσ.le) (fun _ => 1) (fun _ => .inr rfl) (fun _ _ => rfl)
  obtain ⟨ps', t', d', i1, i2, i3⟩ := two_generations halg eps heps.le info (fun _ : Fin 1 => a * σ) (fun _ => by positivity) (fun _ => 1) (fun _ => .inr rfl) (fun _ _ => rfl)
  refine ⟨listNormal fun _ => 1, (0 : Nat), _, _, fun _ => 0, fun _ => σ, ps, ps', t, t', d, d', hσ, h1, ?_, fun _ => rfl, h2, i2, ?_⟩
  · have e1 : (⟨fun i => a * ((fun _ : Fin 1 => -10 * σ) i), fun i => a * ((fun _ : Fin 1 => 10 * σ) i)⟩ : Bounds ℝ 1) = ⟨fun _ => -10 * (a * σ), fun _ => 10 * (a * σ)⟩ := by
      congr 1 <;> funext _ <;> ring
    have e2 : (fun _ : Fin 1 => a * (0 : ℝ)) = fun _ => 0 := by funext _; ring
    show Es.Search _ ⟨fun i => a * ((fun _ : Fin 1 => -10 * σ) i), fun i => a * ((fun _ : Fin 1 => 10 * σ) i)⟩ _ _ _ _ _ _ (Es.init (fun _ => a * 0) _) _ _ _ _
    rw [e1, e2]
    exact i1
  · have k0 : (0 : ℝ) < 2 / 5 * σ + Real.sqrt 26 / 5 * σ * 1 := by positivity
    have k1 : (0 : ℝ) < 2 / 5 * (a * σ) + Real.sqrt 26 / 5 * (a * σ) * 1 := by positivity
    have al : ∀ s w : ℝ, 0 < s → along eps (fun _ : Fin 1 => s) (fun _ => w) 0 = if eps < (s / 5) ^ 2 then w else 0 := by
      intro s w hs
      unfold along
      simp only [Finset.univ_unique, Finset.sum_singleton]
      split
      · field_simp
      · rfl
    have v1 := h3 0
    have v2 := i3 0
    rw [al _ _ hσ] at v1
    rw [al _ _ (by positivity)] at v2
    intro hc
    have hsq : t'.var 0 = a ^ 2 * t.var 0 := by
      have p1 : 0 ≤ t.var 0 := by rw [v1]; positivity
      have p2 : 0 ≤ t'.var 0 := by rw [v2]; positivity
      have hc' : Real.sqrt (t'.var 0) = a * Real.sqrt (t.var 0) := hc
      rw [← Real.sq_sqrt p2, hc', mul_pow, Real.sq_sqrt p1]
    rw [v1, v2] at hsq
    rcases hab with ⟨h, h'⟩ | ⟨h, h'⟩
    · rw [if_pos h, if_neg h'] at hsq
      nlinarith [sq_pos_of_pos k1]
    · rw [if_neg h, if_pos h'] at hsq
      have := sq_pos_of_pos (mul_pos ha k0)
      nlinarith

/-- **C116.** The unit of one parameter matters to the others: the projection onto the momentum mixes them. There is an objective with two parameters for which the standard
deviation of the first is different after two generations of MES and of EVA, with the default options, if the second parameter is measured in another unit. -/
theorem C116_units_mix {alg : EsAlg ℝ} (halg : DefaultEs alg) (eps : ℝ) (heps : 0 ≤ eps) (heps' : eps < 2 / 25) (info : ObjInfo) :
    ∃ (N : StdNormal ℝ) (e : N.Eng) (b : Bounds ℝ 2) (f : (Fin 2 → ℝ) → Dbl) (m std : Fin 2 → ℝ) (ps ps' : List (List (Fin 2 → ℝ))) (t t' : Es ℝ 2) (d d' : N.Eng),
      (∀ i, 0 < std i) ∧ Es.Search N.rng b alg eps 2 1 info f (Es.init m std) e ps t d ∧
      Es.Search N.rng ⟨fun i => ![1, 2] i * b.lo i, fun i => ![1, 2] i * b.hi i⟩ alg eps 2 1 info f (Es.init (fun i => ![1, 2] i * m i) fun i => ![1, 2] i * std i) e ps' t' d' ∧
      (∀ x, f (fun i => ![1, 2] i * x i) = f x) ∧ ps.length = 2 ∧ ps'.length = 2 ∧ t'.std 0 ≠ t.std 0 := by
  let z : Nat → ℝ := fun k => if k = 7 then 0 else 1
  have hz : ∀ k, z k = 0 ∨ z k = 1 := fun k => by
    by_cases h : k = 7
    · exact .inl (if_pos h)
    · exact .inr (if_neg h)
  have hz1 : ∀ k ≤ 2 * (2 + 1), z k = 1 := fun k hk => if_neg (by omega)
  obtain ⟨ps, t, d, h1, h2, h3⟩ := two_generations halg eps heps info (fun _ : Fin 2 => 1) (fun _ => zero_le_one) z hz hz1
  obtain ⟨ps', t', d', i1, i2, i3⟩ := two_generations halg eps heps info (![1, 2] : Fin 2 → ℝ) (fun i => by fin_cases i <;> simp) z hz hz1
  refine ⟨listNormal z, (0 : Nat), _, _, fun _ => 0, fun _ => 1, ps, ps', t, t', d, d', fun _ => one_pos, h1, ?_, fun _ => rfl, h2, i2, ?_⟩
  · have e1 : (⟨fun i => ![1, 2] i * ((fun _ : Fin 2 => -10 * (1 : ℝ)) i), fun i => ![1, 2] i * ((fun _ : Fin 2 => 10 * (1 : ℝ)) i)⟩ : Bounds ℝ 2) =
        ⟨fun i => -10 * ![1, 2] i, fun i => 10 * ![1, 2] i⟩ := by
      congr 1 <;> funext _ <;> ring
    have e2 : (fun i : Fin 2 => ![1, 2] i * (0 : ℝ)) = fun _ => 0 := by funext _; ring
    have e3 : (fun i : Fin 2 => ![1, 2] i * (1 : ℝ)) = ![1, 2] := by funext _; ring
    show Es.Search _ ⟨fun i => ![1, 2] i * ((fun _ : Fin 2 => -10 * (1 : ℝ)) i), fun i => ![1, 2] i * ((fun _ : Fin 2 => 10 * (1 : ℝ)) i)⟩ _ _ _ _ _ _
      (Es.init (fun i => ![1, 2] i * 0) fun i => ![1, 2] i * 1) _ _ _ _
    rw [e1, e2, e3]
    exact i1
  · have z7 : z (2 * (2 + 1) + 1 + ((0 : Fin 2) : Nat)) = 0 := if_pos rfl
    have z8 : z (2 * (2 + 1) + 1 + ((1 : Fin 2) : Nat)) = 1 := if_neg (by decide)
    have v1 := h3 0
    have v2 := i3 0
    unfold along at v1 v2
    simp only [Fin.sum_univ_two, z7, z8, Matrix.cons_val_zero, Matrix.cons_val_one] at v1 v2
    rw [if_pos (by linarith)] at v1
    rw [if_pos (by linarith)] at v2
    have h26 : Real.sqrt 26 ^ 2 = 26 := Real.sq_sqrt (by norm_num)
    generalize Real.sqrt 26 = q at h26 v1 v2
    have w1 : t.var 0 = 4 / 5 + 1 / 5 * (26 / 100) := by rw [v1, ← h26]; ring
    have w2 : t'.var 0 = 4 / 5 + 1 / 5 * (26 * 16 / 625) := by rw [v2, ← h26]; ring
    show Real.sqrt (t'.var 0) ≠ Real.sqrt (t.var 0)
    rw [w1, w2]
    intro hc
    rw [Real.sqrt_inj (by norm_num) (by norm_num)] at hc
    norm_num at hc

/-- The hypotheses of C116_translation and C116_affine can be met: with the default options there are searches of two generations in every dimension. -/
example (alg : EsAlg ℝ) (halg : DefaultEs alg) (n : Nat) (info : ObjInfo) (τ : Fin n → ℝ) :
    ∃ ps t t' e', ps.length = 2 ∧
      Es.Search (listNormal fun _ => 1).rng ⟨fun _ => -10 * 1 + 0, fun _ => 10 * 1 + 0⟩ alg (1 / 10 ^ 6) 2 1 info (fun _ => .fin 0) (Es.init (fun _ => 0 + 0) fun _ => 1) (0 : Nat) ps t e' ∧
      Es.Search (listNormal fun _ => 1).rng ⟨fun i => -10 * 1 + τ i, fun i => 10 * 1 + τ i⟩ alg (1 / 10 ^ 6) 2 1 info (fun _ => .fin 0) (Es.init (fun i => 0 + τ i) fun _ => 1) (0 : Nat)
        (ps.map (List.map fun x i => x i + τ i)) t' e' ∧ ∀ i, t'.mean i = t.mean i + τ i := by
  obtain ⟨ps, t, e', h1, h2, _⟩ := two_generations halg (1 / 10 ^ 6) (by norm_num) info (fun _ : Fin n => 1) (fun _ => zero_le_one) (fun _ => 1) (fun _ => .inr rfl) (fun _ _ => rfl)
  obtain ⟨t', i1, i2, _⟩ := C116_translation (τ := τ) (f := fun _ => .fin 0) (f' := fun _ => .fin 0) _ alg _ 2 1 one_ne_zero info (fun _ => rfl) _ _ _ h1
  refine ⟨ps, t, t', e', h2, ?_, i1, i2⟩
  simpa using h1

end Spot
