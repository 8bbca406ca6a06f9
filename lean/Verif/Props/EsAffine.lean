import Verif.Model.EsSearch
import Verif.Props.CmaAffine
import Verif.Props.Start
import Verif.Props.Selection

/-! # MES and EVA do not depend on the origin of the parameters; on their unit they do (C116) -/

namespace Spot

variable {n : Nat}

section
variable {N : StdNormal ℝ} {a : ℝ} {τ : Fin n → ℝ}

/-- Related distributions. -/
structure Es.Aff (a : ℝ) (τ : Fin n → ℝ) (s s' : Es ℝ n) : Prop where
  mean : ∀ i, s'.mean i = a * s.mean i + τ i
  var : ∀ i, s'.var i = a ^ 2 * s.var i
  mom : ∀ i, s'.mom i = a * s.mom i

theorem sampleLoop_zero (R : Rng ℝ) (lo hi : ℝ) (d : R.Dist) (e : R.Eng) : sampleLoop R lo hi 0 d e = (clamped (R.draw d e).1 lo hi, (R.draw d e).2.2) := rfl

theorem sampleLoop_succ (R : Rng ℝ) (lo hi : ℝ) (k : Nat) (d : R.Dist) (e : R.Eng) : sampleLoop R lo hi (k + 1) d e =
    if Arith.le lo (R.draw d e).1 && Arith.le (R.draw d e).1 hi then ((R.draw d e).1, (R.draw d e).2.2) else sampleLoop R lo hi k (R.draw d e).2.1 (R.draw d e).2.2 := rfl

theorem sampleVec_cons (R : Rng ℝ) (b : Bounds ℝ n) (m s : Fin n → ℝ) (i : Fin n) (is : List (Fin n)) (e : R.Eng) : sampleVec R b m s (i :: is) e =
    ((sampleParameter R (m i) (s i) (b.lo i) (b.hi i) e).1 :: (sampleVec R b m s is (sampleParameter R (m i) (s i) (b.lo i) (b.hi i) e).2).1,
      (sampleVec R b m s is (sampleParameter R (m i) (s i) (b.lo i) (b.hi i) e).2).2) := rfl

theorem sampleLoopPop_succ (R : Rng ℝ) (b : Bounds ℝ n) (s : Es ℝ n) (k : Nat) (d : R.Dist) (e : R.Eng) : sampleLoopPop R b s (k + 1) d e =
    ((sampleIndividual R b s d e).1.map Arith.round8 :: (sampleLoopPop R b s k (sampleIndividual R b s d e).2.1 (sampleIndividual R b s d e).2.2).1,
      (sampleLoopPop R b s k (sampleIndividual R b s d e).2.1 (sampleIndividual R b s d e).2.2).2) := rfl

theorem sampleIndividual_eq (R : Rng ℝ) (b : Bounds ℝ n) (s : Es ℝ n) (d : R.Dist) (e : R.Eng) : sampleIndividual R b s d e =
    ((sampleVec R b (fun i => s.mean i + (R.draw d e).1 * s.mom i) (fun i => Arith.sqrt (s.var i + squared (s.mom i))) (List.finRange n) (R.draw d e).2.2).1, (R.draw d e).2.1,
      (sampleVec R b (fun i => s.mean i + (R.draw d e).1 * s.mom i) (fun i => Arith.sqrt (s.var i + squared (s.mom i))) (List.finRange n) (R.draw d e).2.2).2) := rfl

theorem aff_draws (ha : 0 < a) {R : Rng ℝ} {M : Type} (D D' : M → R.Dist) (v : M → R.Eng → ℝ) (nm : M → R.Eng → M) (ne : M → R.Eng → R.Eng) (t : ℝ)
    (h1 : ∀ m e, R.draw (D m) e = (v m e, D (nm m e), ne m e)) (h2 : ∀ m e, R.draw (D' m) e = (a * v m e + t, D' (nm m e), ne m e)) (lo hi : ℝ) :
    ∀ (k : Nat) (m : M) (e : R.Eng), sampleLoop R (a * lo + t) (a * hi + t) k (D' m) e = (a * (sampleLoop R lo hi k (D m) e).1 + t, (sampleLoop R lo hi k (D m) e).2)
  | 0, m, e => by
    rw [sampleLoop_zero, sampleLoop_zero, h1, h2]
    dsimp only
    unfold clamped
    simp only [lt_real, add_lt_add_iff_right, mul_lt_mul_iff_right₀ ha]
    split
    · rfl
    · split <;> rfl
  | k + 1, m, e => by
    rw [sampleLoop_succ, sampleLoop_succ, h1, h2]
    dsimp only
    rw [aff_draws ha D D' v nm ne t h1 h2 lo hi k]
    simp only [le_real, add_le_add_iff_right, mul_le_mul_iff_right₀ ha]
    split <;> rfl

theorem aff_sampleParameter (ha : 0 < a) (t lo hi m s : ℝ) (e : N.rng.Eng) :
    sampleParameter N.rng (a * m + t) (a * s) (a * lo + t) (a * hi + t) e = (a * (sampleParameter N.rng m s lo hi e).1 + t, (sampleParameter N.rng m s lo hi e).2) :=
  aff_draws ha (R := N.rng) (M := N.Mem) (fun mem => (m, s, mem)) (fun mem => (a * m + t, a * s, mem)) (fun mem e => m + s * (N.next mem e).1) (fun mem e => (N.next mem e).2.1)
    (fun mem e => (N.next mem e).2.2) t (fun _ _ => rfl) (fun mem e => Prod.ext (by
      show a * m + t + a * s * (N.next mem e).1 = a * (m + s * (N.next mem e).1) + t
      ring) rfl) lo hi 100 N.fresh e

theorem aff_sampleVec (ha : 0 < a) (b : Bounds ℝ n) {m s m' s' : Fin n → ℝ} (hm : ∀ i, m' i = a * m i + τ i) (hs : ∀ i, s' i = a * s i) : ∀ (is : List (Fin n)) (e : N.rng.Eng),
    sampleVec N.rng (b.aff a τ) m' s' is e = (List.zipWith (fun x i => a * x + τ i) (sampleVec N.rng b m s is e).1 is, (sampleVec N.rng b m s is e).2)
  | [], e => rfl
  | i :: is, e => by
    have h1 : sampleParameter N.rng (m' i) (s' i) ((b.aff a τ).lo i) ((b.aff a τ).hi i) e =
        (a * (sampleParameter N.rng (m i) (s i) (b.lo i) (b.hi i) e).1 + τ i, (sampleParameter N.rng (m i) (s i) (b.lo i) (b.hi i) e).2) := by
      rw [hm, hs]
      exact aff_sampleParameter ha (τ i) (b.lo i) (b.hi i) (m i) (s i) e
    rw [sampleVec_cons, sampleVec_cons, h1]
    dsimp only
    rw [aff_sampleVec ha b hm hs is]
    rfl

theorem length_sampleVec (R : Rng ℝ) (b : Bounds ℝ n) (m s : Fin n → ℝ) : ∀ (is : List (Fin n)) (e : R.Eng), (sampleVec R b m s is e).1.length = is.length
  | [], _ => rfl
  | i :: is, e => by
    rw [sampleVec_cons, List.length_cons, length_sampleVec R b m s is, List.length_cons]

theorem vecOf_zip (v : List ℝ) (hv : v.length = n) : vecOf n (List.zipWith (fun x i => a * x + τ i) v (List.finRange n)) = aff a τ (vecOf n v) := by
  funext i
  show List.getD _ _ _ = a * List.getD _ _ _ + τ i
  rw [List.getD_eq_getElem?_getD, List.getD_eq_getElem?_getD, List.getElem?_zipWith, List.getElem?_eq_getElem (by rw [hv]; exact i.2),
    List.getElem?_eq_getElem (by rw [List.length_finRange]; exact i.2)]
  simp

theorem aff_samplePop (ha : 0 < a) (b : Bounds ℝ n) {s s' : Es ℝ n} (h : s.Aff a τ s') : ∀ (k : Nat) (d : N.rng.Dist) (e : N.rng.Eng),
    (sampleLoopPop N.rng (b.aff a τ) s' k d e).1.map (vecOf n) = (sampleLoopPop N.rng b s k d e).1.map (fun x => aff a τ (vecOf n x)) ∧
    (sampleLoopPop N.rng (b.aff a τ) s' k d e).2 = (sampleLoopPop N.rng b s k d e).2
  | 0, _, _ => ⟨rfl, rfl⟩
  | k + 1, d, e => by
    have hi : ∀ o : ℝ, ∀ e, sampleVec N.rng (b.aff a τ) (fun i => s'.mean i + o * s'.mom i) (fun i => Arith.sqrt (s'.var i + squared (s'.mom i))) (List.finRange n) e =
        (List.zipWith (fun x i => a * x + τ i) (sampleVec N.rng b (fun i => s.mean i + o * s.mom i) (fun i => Arith.sqrt (s.var i + squared (s.mom i))) (List.finRange n) e).1
          (List.finRange n), (sampleVec N.rng b (fun i => s.mean i + o * s.mom i) (fun i => Arith.sqrt (s.var i + squared (s.mom i))) (List.finRange n) e).2) := by
      intro o e
      refine aff_sampleVec ha b (fun i => ?_) (fun i => ?_) _ _
      · rw [h.mean, h.mom]; ring
      · rw [h.var, h.mom]
        simp only [sqrt_real, squared_real]
        rw [show a ^ 2 * s.var i + (a * s.mom i) ^ 2 = a ^ 2 * (s.var i + s.mom i ^ 2) by ring, Real.sqrt_mul (sq_nonneg a), Real.sqrt_sq ha.le]
    rw [sampleLoopPop_succ, sampleLoopPop_succ, sampleIndividual_eq, sampleIndividual_eq]
    dsimp only
    rw [hi]
    dsimp only
    obtain ⟨i1, i2⟩ := aff_samplePop ha b h k (N.rng.draw d e).2.1
      (sampleVec N.rng b (fun i => s.mean i + (N.rng.draw d e).1 * s.mom i) (fun i => Arith.sqrt (s.var i + squared (s.mom i))) (List.finRange n) (N.rng.draw d e).2.2).2
    refine ⟨?_, i2⟩
    rw [List.map_cons, List.map_cons, i1]
    congr 1
    have hid : ∀ l : List ℝ, l.map Arith.round8 = l := fun l => List.map_id l
    rw [hid, hid]
    exact vecOf_zip _ (by rw [length_sampleVec, List.length_finRange])

theorem dot_real (x y : Fin n → ℝ) : dotProduct x y = ∑ i, x i * y i := sumFin_real _

theorem aff_projected (ha : 0 < a) (eps : ℝ) {s s' : Es ℝ n} (h : s.Aff a τ s') (x : Fin n → ℝ) :
    projected (a ^ 2 * eps) s'.mean s'.mom (aff a τ x) = aff a τ (projected eps s.mean s.mom x) := by
  have hd : dotProduct s'.mom s'.mom = a ^ 2 * dotProduct s.mom s.mom := by
    rw [dot_real, dot_real, Finset.mul_sum]
    exact Finset.sum_congr rfl fun i _ => by rw [h.mom]; ring
  have hp : dotProduct (fun i => aff a τ x i - s'.mean i) s'.mom = a ^ 2 * dotProduct (fun i => x i - s.mean i) s.mom := by
    rw [dot_real, dot_real, Finset.mul_sum]
    exact Finset.sum_congr rfl fun i _ => by rw [h.mom, h.mean]; unfold aff; ring
  have ha2 : 0 < a ^ 2 := by positivity
  unfold projected
  rw [hd, hp]
  simp only [lt_real, mul_lt_mul_iff_right₀ ha2]
  split
  · funext i
    unfold aff
    dsimp only
    rw [h.mean, h.mom, mul_div_mul_left _ _ ha2.ne']
    ring
  · funext i
    rw [h.mean]; rfl

theorem foldl_add (g : (Fin n → ℝ) → ℝ) : ∀ (l : List (Fin n → ℝ)) (c : ℝ), l.foldl (fun a x => a + g x) c = c + (l.map g).sum
  | [], c => by simp
  | x :: l, c => by rw [List.foldl_cons, foldl_add g l, List.map_cons, List.sum_cons]; ring

theorem aff_selMean (sel : List (Fin n → ℝ)) (mu : Int) (hl : (sel.length : ℤ) = mu) (hmu : mu ≠ 0) (j : Fin n) :
    selMean (sel.map (aff a τ)) mu j = a * selMean sel mu j + τ j := by
  unfold selMean
  rw [foldl_add (fun x => x j), foldl_add (fun x => x j), List.map_map]
  have : (sel.map ((fun x => x j) ∘ aff a τ)).sum = a * (sel.map fun x => x j).sum + sel.length * τ j := by
    clear hl
    induction sel with
    | nil => simp
    | cons x l ih =>
      rw [List.map_cons, List.sum_cons, ih, List.map_cons, List.sum_cons, List.length_cons]
      simp only [Function.comp, aff]
      push_cast; ring
  rw [this]
  have hm : ((mu : ℚ) : ℝ) = (sel.length : ℝ) := by rw [← hl]; push_cast; rfl
  have hne : (sel.length : ℝ) ≠ 0 := by
    have : sel.length ≠ 0 := by omega
    exact_mod_cast this
  simp only [lit_real, hm, Rat.cast_zero, zero_add]
  field_simp

theorem aff_selVar (ha : 0 < a) (eps : ℝ) {s s' : Es ℝ n} (h : s.Aff a τ s') (sel : List (Fin n → ℝ)) (mu : Int) (j : Fin n) :
    selVar (a ^ 2 * eps) s' (sel.map (aff a τ)) mu j = a ^ 2 * selVar eps s sel mu j := by
  unfold selVar
  rw [foldl_add (fun x => squared (x j - projected (a ^ 2 * eps) s'.mean s'.mom x j)), foldl_add (fun x => squared (x j - projected eps s.mean s.mom x j)), List.map_map]
  have : (sel.map ((fun x => squared (x j - projected (a ^ 2 * eps) s'.mean s'.mom x j)) ∘ aff a τ)).sum =
      a ^ 2 * (sel.map fun x => squared (x j - projected eps s.mean s.mom x j)).sum := by
    induction sel with
    | nil => simp
    | cons x l ih =>
      rw [List.map_cons, List.sum_cons, ih, List.map_cons, List.sum_cons]
      simp only [Function.comp, squared_real]
      rw [aff_projected ha eps h]
      unfold aff; ring
  rw [this]
  simp only [lit_real, Rat.cast_zero, zero_add]
  ring

theorem es_aff_update (ha : 0 < a) (eps : ℝ) {s s' : Es ℝ n} (h : s.Aff a τ s') (sel : List (Fin n → ℝ)) (mu : Int) (hl : (sel.length : ℤ) = mu) (hmu : mu ≠ 0) (alg : EsAlg ℝ) :
    (alg.updateWith eps mu s sel).Aff a τ (alg.updateWith (a ^ 2 * eps) mu s' (sel.map (aff a τ))) := by
  have hM := fun j => aff_selMean (a := a) (τ := τ) sel mu hl hmu j
  have hV := fun j => aff_selVar ha eps h sel mu j
  cases alg with
  | mes o =>
    unfold EsAlg.updateWith mesUpdateWith
    dsimp only
    split
    · refine ⟨fun i => ?_, fun i => ?_, fun i => ?_⟩ <;> simp only [upd, hM, hV, h.mean, h.var, h.mom] <;> ring
    · refine ⟨fun i => ?_, fun i => ?_, fun i => ?_⟩ <;> simp only [upd, hM, hV, h.mean, h.var, h.mom, lit_real, Rat.cast_one] <;> ring
  | eva o =>
    unfold EsAlg.updateWith evaUpdateWith
    refine ⟨fun i => ?_, fun i => ?_, fun i => ?_⟩ <;> simp only [upd, hM, hV, h.mean, h.var, h.mom] <;> ring

theorem gather_map' {α β : Type} (g : α → β) (pop : List α) : ∀ (is : List Nat) (sel : List α), gather pop is = .ok sel → gather (pop.map g) is = .ok (sel.map g) ∧ sel.length = is.length
  | [], sel, h => by
    obtain rfl := Res.ok.inj h
    exact ⟨rfl, rfl⟩
  | i :: is, sel, h => by
    unfold gather at h ⊢
    rw [List.getElem?_map]
    generalize pop[i]? = o at h
    cases o with
    | none => cases h
    | some x =>
      obtain ⟨xs, h1, h2⟩ := Res.bind_eq_ok.1 h
      obtain rfl := Res.ok.inj h2
      obtain ⟨i1, i2⟩ := gather_map' g pop is xs h1
      refine ⟨?_, by rw [List.length_cons, List.length_cons, i2]⟩
      show (gather (pop.map g) is >>= _) = _
      rw [i1]; rfl

theorem aff_updateDistribution (ha : 0 < a) (eps : ℝ) {s s' : Es ℝ n} (h : s.Aff a τ s') (mu : Int) (hmu : mu ≠ 0) (alg : EsAlg ℝ) (order : List Nat) (pop : List (Fin n → ℝ))
    {t : Es ℝ n} (hu : updateDistribution alg eps mu s order pop = .ok t) :
    ∃ t', updateDistribution alg (a ^ 2 * eps) mu s' order (pop.map (aff a τ)) = .ok t' ∧ t.Aff a τ t' := by
  unfold updateDistribution at hu ⊢
  obtain ⟨sel, h1, h2⟩ := Res.bind_eq_ok.1 hu
  obtain rfl := Res.ok.inj h2
  unfold selected at h1 ⊢
  split at h1
  · cases h1
  · rename_i hneg
    split at h1
    · rename_i hle
      obtain ⟨g1, g2⟩ := gather_map' (aff a τ) pop _ _ h1
      rw [if_neg hneg, if_pos hle, g1]
      refine ⟨_, rfl, es_aff_update ha eps h sel mu ?_ hmu alg⟩
      rw [g2, List.length_take, Nat.min_eq_left hle]
      omega
    · cases h1

theorem aff_search (ha : 0 < a) (b : Bounds ℝ n) (alg : EsAlg ℝ) (eps : ℝ) (lambda : Nat) (mu : Int) (hmu : mu ≠ 0) (info : ObjInfo) {f f' : (Fin n → ℝ) → Dbl}
    (hf : ∀ x, f' (fun i => a * x i + τ i) = f x) {s s' : Es ℝ n} (h0 : s.Aff a τ s') (e : N.rng.Eng) {ps t e'} (h : Es.Search N.rng b alg eps lambda mu info f s e ps t e') :
    ∃ t', Es.Search N.rng (b.aff a τ) alg (a ^ 2 * eps) lambda mu info f' s' e (ps.map (List.map (aff a τ))) t' e' ∧ t.Aff a τ t' := by
  induction h with
  | nil => exact ⟨s', .nil, h0⟩
  | @snoc ps t d pop d' order t1 h hp ho hu ih =>
    obtain ⟨t', i1, i2⟩ := ih
    obtain ⟨p1, p2⟩ := aff_samplePop ha b i2 lambda (N.rng.normal alg.ofs.1 alg.ofs.2) d
    unfold samplePopulation at hp
    rw [hp] at p1 p2
    obtain ⟨t1', u1, u2⟩ := aff_updateDistribution ha eps i2 mu hmu alg order _ hu
    rw [List.map_map] at u1
    refine ⟨t1', ?_, u2⟩
    rw [List.map_append, List.map_cons, List.map_nil, List.map_map]
    dsimp only at p1 p2
    have e1 : (sampleLoopPop N.rng (b.aff a τ) t' lambda (N.rng.normal alg.ofs.1 alg.ofs.2) d).1.map (vecOf n) = pop.map (aff a τ ∘ vecOf n) := p1
    rw [← e1]
    refine .snoc i1 (pop := (sampleLoopPop N.rng (b.aff a τ) t' lambda (N.rng.normal alg.ofs.1 alg.ofs.2) d).1) (Prod.ext rfl p2) (order := order) ?_ ?_
    · have : ((sampleLoopPop N.rng (b.aff a τ) t' lambda (N.rng.normal alg.ofs.1 alg.ofs.2) d).1.map fun x => f' (vecOf n x)) = pop.map fun x => f (vecOf n x) := by
        have := congrArg (List.map f') e1
        rw [List.map_map, List.map_map] at this
        refine this.trans (List.map_congr_left fun x _ => ?_)
        exact hf _
      rw [this]; exact ho
    · rw [e1]; exact u1

/-- **C116.** Exact arithmetic, standard normal draws from any generator. Let `f'` be the objective `f` in other coordinates: another origin and another unit, the same for all
parameters. To every search for `f` there is a search for `f'` from the same seed with the means, the standard deviations and the bounds converted, and the threshold below
which the momentum is ignored converted as well; it evaluates the same points, and its mean and its standard deviations are the same, in the new coordinates. -/
theorem C116_affine (ha : 0 < a) (b : Bounds ℝ n) (alg : EsAlg ℝ) (eps : ℝ) (lambda : Nat) (mu : Int) (hmu : mu ≠ 0) (info : ObjInfo) {f f' : (Fin n → ℝ) → Dbl}
    (hf : ∀ x, f' (fun i => a * x i + τ i) = f x) (m std : Fin n → ℝ) (e : N.rng.Eng) {ps t e'} (h : Es.Search N.rng b alg eps lambda mu info f (Es.init m std) e ps t e') :
    ∃ t', Es.Search N.rng ⟨fun i => a * b.lo i + τ i, fun i => a * b.hi i + τ i⟩ alg (a ^ 2 * eps) lambda mu info f' (Es.init (fun i => a * m i + τ i) fun i => a * std i) e
        (ps.map (List.map fun x i => a * x i + τ i)) t' e' ∧
      (∀ i, t'.mean i = a * t.mean i + τ i) ∧ ∀ i, t'.std i = a * t.std i := by
  have h0 : (Es.init m std).Aff a τ (Es.init (aff a τ m) fun i => a * std i) :=
    ⟨fun _ => rfl, fun i => by show squared (a * std i) = a ^ 2 * squared (std i); rw [squared_real, squared_real]; ring, fun i => by
      show (lit 0 : ℝ) = a * lit 0; simp⟩
  obtain ⟨t', h1, h2⟩ := aff_search ha b alg eps lambda mu hmu info hf h0 e h
  refine ⟨t', h1, h2.mean, fun i => ?_⟩
  unfold Es.std
  rw [h2.var, sqrt_real, sqrt_real, Real.sqrt_mul (sq_nonneg a), Real.sqrt_sq ha.le]

/-- **C116.** Another origin alone changes nothing: the same search, shifted. -/
theorem C116_translation (b : Bounds ℝ n) (alg : EsAlg ℝ) (eps : ℝ) (lambda : Nat) (mu : Int) (hmu : mu ≠ 0) (info : ObjInfo) {f f' : (Fin n → ℝ) → Dbl}
    (hf : ∀ x, f' (fun i => x i + τ i) = f x) (m std : Fin n → ℝ) (e : N.rng.Eng) {ps t e'} (h : Es.Search N.rng b alg eps lambda mu info f (Es.init m std) e ps t e') :
    ∃ t', Es.Search N.rng ⟨fun i => b.lo i + τ i, fun i => b.hi i + τ i⟩ alg eps lambda mu info f' (Es.init (fun i => m i + τ i) std) e
        (ps.map (List.map fun x i => x i + τ i)) t' e' ∧
      (∀ i, t'.mean i = t.mean i + τ i) ∧ ∀ i, t'.std i = t.std i := by
  have := C116_affine (a := 1) (τ := τ) (f' := f') zero_lt_one b alg eps lambda mu hmu info (by simpa using hf) m std e h
  simpa using this

end

end Spot
