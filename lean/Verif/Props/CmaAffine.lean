import Verif.Props.CmaSampling

/-! # CMA-ES does not depend on the origin and the unit of the parameters (C79) -/

namespace Spot

section
variable {n : Nat} {G : GaussSrc ℝ} (a : ℝ) (τ : Fin n → ℝ)

/-- Change of origin and unit. -/
def aff (x : Fin n → ℝ) : Fin n → ℝ := fun i => a * x i + τ i

/-- The same for bounds. -/
def Bounds.aff (b : Bounds ℝ n) : Bounds ℝ n := ⟨Spot.aff a τ b.lo, Spot.aff a τ b.hi⟩

/-- The same for calls: a boundary transformer has to do the same in the new coordinates. -/
inductive CmaCall.Aff : CmaCall ℝ n → CmaCall ℝ n → Prop
  | sample {tr tr'} (h : ∀ x, tr' (aff a τ x) = aff a τ (tr x)) : CmaCall.Aff (.sample tr) (.sample tr')
  | update (fs : List Dbl) : CmaCall.Aff (.update fs) (.update fs)

/-- Related states, except for the population. -/
structure Cma.Aff0 (s s' : Cma G n) : Prop where
  sigma : s'.sigma = a * s.sigma
  mean : s'.mean = aff a τ s.mean
  C : s'.C = s.C
  B : s'.B = s.B
  D : s'.D = s.D
  pc : s'.pc = s.pc
  ps : s'.ps = s.ps
  gen : s'.gen = s.gen
  state : s'.state = s.state
  up : s'.eigenUptodate = s.eigenUptodate
  genE : s'.genOfEigen = s.genOfEigen
  rng : s'.rng = s.rng
  index : s'.index = s.index

/-- Related states. -/
structure Cma.Aff (s s' : Cma G n) : Prop extends Cma.Aff0 a τ s s' where
  pop : s.state = 1 → s'.pop = s.pop.map (aff a τ)

variable {a τ}

theorem forall₂_snoc {α β : Type} {R : α → β → Prop} {x : α} : ∀ {l : List α} {l' : List β}, List.Forall₂ R (l ++ [x]) l' →
    ∃ u y, l' = u ++ [y] ∧ List.Forall₂ R l u ∧ R x y
  | [], _, .cons h .nil => ⟨[], _, rfl, .nil, h⟩
  | _ :: _, _, .cons h t => by
    obtain ⟨u, y, rfl, h1, h2⟩ := forall₂_snoc t
    exact ⟨_ :: u, y, rfl, .cons h h1, h2⟩

theorem aff_prepare (eig : Eig ℝ n) (p : CmaPar ℝ) {s s' : Cma G n} (h : s.Aff0 a τ s') : (s.prepare eig p).Aff0 a τ (s'.prepare eig p) := by
  unfold Cma.prepare Cma.updateEigen Cma.flgdiag
  rw [h.up, h.gen, h.genE]
  split
  · exact h
  · split
    · exact ⟨h.sigma, h.mean, h.C, h.B, by dsimp only; rw [h.C], h.pc, h.ps, rfl, h.state, rfl, rfl, h.rng, h.index⟩
    · split
      · rename_i h1 h2 h3
        exact ⟨h.sigma, h.mean, h.C, h.B, h.D, h.pc, h.ps, h.gen, h.state, h.up, h.genE, h.rng, h.index⟩
      · exact ⟨h.sigma, h.mean, h.C, by dsimp only; rw [h.C], by dsimp only; rw [h.C], h.pc, h.ps, rfl, h.state, rfl, rfl, h.rng, h.index⟩

theorem aff_individual {s s' : Cma G n} (h : s.Aff0 a τ s') (d : Bool) (z : Fin n → ℝ) : s'.individual d z = aff a τ (s.individual d z) := by
  unfold Cma.individual aff
  rw [h.mean, h.sigma, h.B, h.D]
  unfold aff
  cases d
  · funext i
    simp only [Bool.false_eq_true, if_false]
    ring
  · funext i
    simp only [if_true]
    ring

theorem aff_sampleLoop {s s' : Cma G n} (h : s.Aff0 a τ s') (d : Bool) : ∀ (k : Nat) (e : G.St),
    s'.sampleLoop d k e = ((s.sampleLoop d k e).1.map (aff a τ), (s.sampleLoop d k e).2)
  | 0, _ => rfl
  | k + 1, e => by
    rw [Cma.sampleLoop, Cma.sampleLoop, aff_sampleLoop h d k, aff_individual h]
    rfl

theorem aff_samplePopulation (eig : Eig ℝ n) (p : CmaPar ℝ) {s s' : Cma G n} (h : s.Aff0 a τ s') :
    (s.samplePopulation eig p).Aff a τ (s'.samplePopulation eig p) := by
  have hp := aff_prepare eig p h
  have hd : (s'.prepare eig p).flgdiag p = (s.prepare eig p).flgdiag p := by unfold Cma.flgdiag; rw [hp.gen]
  have hl := aff_sampleLoop hp ((s.prepare eig p).flgdiag p) p.lambda (s.prepare eig p).rng
  have hg : (s'.samplePopulation eig p).gen = (s.samplePopulation eig p).gen := by
    unfold Cma.samplePopulation
    dsimp only
    rw [hp.state, hp.gen]
  have hl' : (s'.prepare eig p).sampleLoop ((s'.prepare eig p).flgdiag p) p.lambda (s'.prepare eig p).rng =
      (((s.prepare eig p).sampleLoop ((s.prepare eig p).flgdiag p) p.lambda (s.prepare eig p).rng).1.map (aff a τ),
        ((s.prepare eig p).sampleLoop ((s.prepare eig p).flgdiag p) p.lambda (s.prepare eig p).rng).2) := by rw [hd, hp.rng]; exact hl
  exact ⟨⟨hp.sigma, hp.mean, hp.C, hp.B, hp.D, hp.pc, hp.ps, hg, rfl, hp.up, hp.genE, (congrArg Prod.snd hl' :), hp.index⟩, fun _ => (congrArg Prod.fst hl' :)⟩

theorem aff_feasible (ha : 0 < a) (b : Bounds ℝ n) (x : Fin n → ℝ) : (b.aff a τ).feasible (aff a τ x) = b.feasible x := by
  rw [Bool.eq_iff_iff, feasible_iff, feasible_iff]
  refine forall_congr' fun i => ?_
  simp only [Bounds.aff, aff, lt_real, decide_eq_false_iff_not, not_lt, add_le_add_iff_right]
  rw [mul_le_mul_iff_right₀ ha, mul_le_mul_iff_right₀ ha]

theorem aff_clamp (ha : 0 < a) (b : Bounds ℝ n) (x : Fin n → ℝ) : (b.aff a τ).clamp (aff a τ x) = aff a τ (b.clamp x) := by
  funext i
  unfold Bounds.clamp clamped Bounds.aff aff
  simp only [le_real, lt_real, add_le_add_iff_right, add_lt_add_iff_right, mul_le_mul_iff_right₀ ha, mul_lt_mul_iff_right₀ ha]
  split
  · rfl
  · split
    · rfl
    · split <;> rfl

theorem getD_map_aff (l : List (Fin n → ℝ)) (k : Nat) (hk : k < l.length) : (l.map (aff a τ)).getD k (fun _ => lit 0) = aff a τ (l.getD k fun _ => lit 0) := by
  rw [List.getD_eq_getElem?_getD, List.getD_eq_getElem?_getD, List.getElem?_map, List.getElem?_eq_getElem hk]
  rfl

theorem aff_resample {s s' : Cma G n} (h : s.Aff a τ s') (k : Nat) : (s.resampleSingle k).Aff a τ (s'.resampleSingle k) := by
  have hi := aff_individual h.toAff0 false (vecOf n (drawN G n s.rng).1)
  refine ⟨⟨h.sigma, h.mean, h.C, h.B, h.D, h.pc, h.ps, h.gen, h.state, h.up, h.genE, ?_, h.index⟩, fun hst => ?_⟩
  · show (drawN G n s'.rng).2 = (drawN G n s.rng).2
    rw [h.rng]
  · show s'.pop.set k (s'.individual false (vecOf n (drawN G n s'.rng).1)) = _
    rw [h.rng, hi, h.pop hst]
    show _ = (s.pop.set k _).map _
    rw [List.map_set]

theorem aff_attempts (ha : 0 < a) {tr tr' : (Fin n → ℝ) → Fin n → ℝ} (htr : ∀ x, tr' (aff a τ x) = aff a τ (tr x)) (b : Bounds ℝ n) (k : Nat) :
    ∀ (m : Nat) (s s' : Cma G n) (x : Fin n → ℝ), s.Aff a τ s' → s.state = 1 → k < s.pop.length →
    (Cma.attempts tr b k m s x).1.Aff a τ (Cma.attempts tr' (b.aff a τ) k m s' (aff a τ x)).1 ∧
    (Cma.attempts tr' (b.aff a τ) k m s' (aff a τ x)).2 = (aff a τ (Cma.attempts tr b k m s x).2.1, (Cma.attempts tr b k m s x).2.2)
  | 0, s, s', x, h, hst, hk => ⟨h, rfl⟩
  | m + 1, s, s', x, h, hst, hk => by
    unfold Cma.attempts
    rw [htr, aff_feasible ha]
    split
    · exact ⟨h, rfl⟩
    · have hr := aff_resample h k
      have hst' : (s.resampleSingle k).state = 1 := hst
      have hk' : k < (s.resampleSingle k).pop.length := by rw [(s.resample_same k).popLen]; exact hk
      rw [hr.pop hst', getD_map_aff _ _ hk']
      exact aff_attempts ha htr b k m _ _ _ hr hst' hk'

theorem aff_bounded (ha : 0 < a) {tr tr' : (Fin n → ℝ) → Fin n → ℝ} (htr : ∀ x, tr' (aff a τ x) = aff a τ (tr x)) (b : Bounds ℝ n) (k : Nat)
    (s s' : Cma G n) (h : s.Aff a τ s') (hst : s.state = 1) (hk : k < s.pop.length) :
    (s.bounded tr b k).1.Aff a τ (s'.bounded tr' (b.aff a τ) k).1 ∧ (s'.bounded tr' (b.aff a τ) k).2 = aff a τ (s.bounded tr b k).2 := by
  obtain ⟨h1, h2⟩ := aff_attempts ha htr b k 100 s s' (s.pop.getD k fun _ => lit 0) h hst hk
  unfold Cma.bounded
  rw [h.pop hst, getD_map_aff _ _ hk]
  rcases hr : Cma.attempts tr b k 100 s (s.pop.getD k fun _ => lit 0) with ⟨t, x, f⟩
  rcases hr' : Cma.attempts tr' (b.aff a τ) k 100 s' (aff a τ (s.pop.getD k fun _ => lit 0)) with ⟨t', x', f'⟩
  rw [hr, hr'] at h1 h2
  dsimp only at h1 h2
  rw [Prod.mk.injEq] at h2
  obtain ⟨rfl, rfl⟩ := h2
  cases f'
  · dsimp only
    rw [aff_clamp ha]
    refine ⟨⟨⟨h1.sigma, h1.mean, h1.C, h1.B, h1.D, h1.pc, h1.ps, h1.gen, h1.state, h1.up, h1.genE, h1.rng, h1.index⟩, fun hst' => ?_⟩, rfl⟩
    show t'.pop.set k _ = (t.pop.set k _).map _
    rw [h1.pop hst', List.map_set]
  · exact ⟨h1, rfl⟩

theorem aff_boundedLoop (ha : 0 < a) {tr tr' : (Fin n → ℝ) → Fin n → ℝ} (htr : ∀ x, tr' (aff a τ x) = aff a τ (tr x)) (b : Bounds ℝ n) :
    ∀ (ks : List Nat) (s s' : Cma G n), s.Aff a τ s' → s.state = 1 → (∀ k ∈ ks, k < s.pop.length) →
    (Cma.boundedLoop tr b ks s).1.Aff a τ (Cma.boundedLoop tr' (b.aff a τ) ks s').1 ∧
    (Cma.boundedLoop tr' (b.aff a τ) ks s').2 = (Cma.boundedLoop tr b ks s).2.map (aff a τ)
  | [], s, s', h, _, _ => ⟨h, rfl⟩
  | k :: ks, s, s', h, hst, hk => by
    obtain ⟨h1, h2⟩ := aff_bounded ha htr b k s s' h hst (hk k (by simp))
    have hsame := s.bounded_same tr b k
    obtain ⟨h3, h4⟩ := aff_boundedLoop ha htr b ks _ _ h1 (hsame.state.trans hst) (fun j hj => by rw [hsame.popLen]; exact hk j (by simp [hj]))
    refine ⟨h3, ?_⟩
    rw [Cma.boundedLoop, Cma.boundedLoop, h4, h2]
    rfl

theorem aff_sample (ha : 0 < a) {tr tr' : (Fin n → ℝ) → Fin n → ℝ} (htr : ∀ x, tr' (aff a τ x) = aff a τ (tr x)) (b : Bounds ℝ n) (eig : Eig ℝ n)
    (p : CmaPar ℝ) {s s' : Cma G n} (h : s.Aff a τ s') :
    (s.sample tr b eig p).1.Aff a τ (s'.sample tr' (b.aff a τ) eig p).1 ∧
    (s'.sample tr' (b.aff a τ) eig p).2 = (s.sample tr b eig p).2.map (aff a τ) :=
  aff_boundedLoop ha htr b _ _ _ (aff_samplePopulation eig p h.toAff0) rfl (fun k hk => by
    rw [show (s.samplePopulation eig p).pop.length = p.lambda from Cma.sampleLoop_length _ _ _ _]
    exact List.mem_range.1 hk)

theorem aff_update (ha : 0 < a) {p : CmaPar ℝ} (hw : ∑ k ∈ Finset.range p.mu, p.weights.getD k 0 = 1) (hmu : p.mu ≤ p.lambda) {s s' : Cma G n}
    (h : s.Aff a τ s') (hsh : s.Shape p) (hst : s.state = 1) (gs : List Dbl) (hgl : gs.length = p.lambda) :
    ((s.rank p gs).adapt p).Aff a τ ((s'.rank p gs).adapt p) := by
  set r := s.rank p gs with hr
  set r' := s'.rank p gs with hr'
  have hidx : r'.index = r.index := by show sortedIndex gs s'.index _ = sortedIndex gs s.index _; rw [h.index]
  have hsig : r'.sigma = a * r.sigma := by
    show (if _ then _ else _) = a * (if _ then _ else _)
    rw [h.index, h.sigma]
    split
    · ring
    · rfl
  have hranked : ∀ k < p.lambda, r'.ranked k = aff a τ (r.ranked k) := by
    intro k hk
    show s'.pop.getD (r'.index.getD k 0) _ = aff a τ (s.pop.getD (r.index.getD k 0) _)
    rw [hidx, h.pop hst]
    refine getD_map_aff _ _ ?_
    obtain ⟨hperm, -⟩ := C52_ranking gs s.index (by rw [hsh.index, hgl])
    rw [hgl] at hperm
    have hk' : k < r.index.length := by
      show k < (sortedIndex gs s.index p.lambda).length
      rw [hperm.length_eq, List.length_range]; exact hk
    rw [hsh.pop, List.getD_eq_getElem?_getD, List.getElem?_eq_getElem hk', Option.getD_some]
    exact List.mem_range.1 (hperm.mem_iff.1 (List.getElem_mem hk'))
  have hmean : r'.newMean p = aff a τ (r.newMean p) := by
    funext i
    unfold Cma.newMean aff
    dsimp only
    rw [sumLoop_real, sumLoop_real]
    simp only [lit_real, Rat.cast_zero]
    have : ∀ k ∈ Finset.range p.mu, p.weights.getD k 0 * r'.ranked k i = a * (p.weights.getD k 0 * r.ranked k i) + p.weights.getD k 0 * τ i := by
      intro k hk
      rw [hranked k (lt_of_lt_of_le (Finset.mem_range.1 hk) hmu)]
      unfold aff
      ring
    rw [Finset.sum_congr rfl this, Finset.sum_add_distrib, ← Finset.mul_sum, ← Finset.sum_mul, hw, one_mul]
  have hbdz : ∀ i, (r'.move p).bdz p i = (r.move p).bdz p i := by
    intro i
    show Arith.sqrt p.mueff * (r'.newMean p i - s'.mean i) / r'.sigma = Arith.sqrt p.mueff * (r.newMean p i - s.mean i) / r.sigma
    rw [hmean, hsig, h.mean]
    unfold aff
    have : a * r.newMean p i + τ i - (a * s.mean i + τ i) = a * (r.newMean p i - s.mean i) := by ring
    rw [this, mul_left_comm, mul_div_mul_left _ _ ha.ne']
  have hdiag : ∀ t t' : Cma G n, t'.gen = t.gen → t'.flgdiag p = t.flgdiag p := by intro t t' ht; unfold Cma.flgdiag; rw [ht]
  have hps : (r'.paths p).ps = (r.paths p).ps := by
    show (r'.move p).newPs p = (r.move p).newPs p
    funext i
    unfold Cma.newPs Cma.whiten
    have e1 : (r'.move p).B = (r.move p).B := h.B
    have e2 : (r'.move p).D = (r.move p).D := h.D
    have e3 : (r'.move p).ps = (r.move p).ps := h.ps
    rw [hdiag (r.move p) (r'.move p) h.gen, e1, e2, e3]
    simp only [hbdz]
  have hhs : ∀ t t' : Cma G n, t'.gen = t.gen → t'.ps = t.ps → t'.hsig p = t.hsig p := by
    intro t t' h1 h2
    unfold Cma.hsig Cma.psxps
    rw [h1, h2]
  have hpc : (r'.paths p).pc = (r.paths p).pc := by
    have hu : ∀ r : Cma G n, (r.paths p).pc = fun i => (lit 1 - p.ccumcov) * r.pc i + (if (r.paths p).hsig p then lit 1 else lit 0) *
      Arith.sqrt (p.ccumcov * (lit 2 - p.ccumcov)) * (r.move p).bdz p i := fun r => rfl
    rw [hu, hu, hhs _ _ (show (r'.paths p).gen = (r.paths p).gen from h.gen) hps]
    funext i
    rw [hbdz, show r'.pc = r.pc from h.pc]
  have hC : ((r'.paths p).adaptC p ((r'.paths p).hsig p)).C = ((r.paths p).adaptC p ((r.paths p).hsig p)).C := by
    rw [hhs _ _ (show (r'.paths p).gen = (r.paths p).gen from h.gen) hps]
    have e1 : (r'.paths p).C = (r.paths p).C := h.C
    unfold Cma.adaptC
    split
    · exact e1
    · funext i j
      dsimp only
      rw [hdiag (r.paths p) (r'.paths p) h.gen, e1]
      congr 1
      unfold Cma.newC
      rw [hdiag (r.paths p) (r'.paths p) h.gen, hpc, e1]
      dsimp only
      rw [foldl_real (fun k => _), foldl_real (fun k => _)]
      congr 2
      refine List.map_congr_left fun k hk => ?_
      have hk' := hranked k (lt_of_lt_of_le (List.mem_range.1 hk) hmu)
      have e3 : ∀ i, (r'.paths p).ranked k i - (r'.paths p).xold i = a * ((r.paths p).ranked k i - (r.paths p).xold i) := by
        intro i
        show r'.ranked k i - s'.mean i = a * (r.ranked k i - s.mean i)
        rw [hk', h.mean]
        unfold aff
        ring
      rw [e3, e3, show (r'.paths p).sigma = a * (r.paths p).sigma from hsig]
      have hne := ha.ne'
      rw [show ∀ x y c w : ℝ, c * w * (a * x) * (a * y) = (a * a) * (c * w * x * y) from fun x y c w => by ring,
        show a * (r.paths p).sigma * (a * (r.paths p).sigma) = (a * a) * ((r.paths p).sigma * (r.paths p).sigma) by ring,
        mul_div_mul_left _ _ (mul_ne_zero hne hne)]
  obtain ⟨a1, a2, a3, a4, a5, a6, a7, a8, a9, a10⟩ := Cma.adapt_fields p r
  obtain ⟨b1, b2, b3, b4, b5, b6, b7, b8, b9, b10⟩ := Cma.adapt_fields p r'
  obtain ⟨e1, e2, e3, e4⟩ := adaptC_eigen (p := p) (r.paths p) ((r.paths p).hsig p)
  obtain ⟨f1, f2, f3, f4⟩ := adaptC_eigen (p := p) (r'.paths p) ((r'.paths p).hsig p)
  have hrng : ∀ r : Cma G n, (r.adapt p).rng = r.rng := by
    intro r
    show ((r.paths p).adaptC p ((r.paths p).hsig p)).rng = _
    unfold Cma.adaptC
    split <;> rfl
  refine ⟨⟨?_, by rw [a3, b3]; exact hmean, by rw [a9, b9]; exact hC, ?_, ?_, by rw [a8, b8]; exact hpc, by rw [a7, b7]; exact hps, by rw [a1, b1]; exact h.gen,
    by rw [a2, b2], ?_, ?_, by rw [hrng, hrng]; exact h.rng, by rw [a4, b4]; exact hidx⟩, fun hh => ?_⟩
  · rw [a10, b10, hsig]
    have : (r'.paths p).psxps = (r.paths p).psxps := by unfold Cma.psxps; rw [hps]
    rw [this]
    ring
  · exact f3.trans (h.B.trans e3.symm)
  · exact f4.trans (h.D.trans e4.symm)
  · refine f1.trans (Eq.trans ?_ e1.symm)
    rw [show (r'.paths p).eigenUptodate = (r.paths p).eigenUptodate from h.up]
  · exact f2.trans (h.genE.trans e2.symm)
  · rw [a2] at hh; cases hh

/-- A new optimizer in the new coordinates. -/
theorem aff_init (ha : 0 < a) (p : CmaPar ℝ) (m std : Fin n → ℝ) (e : G.St) :
    (Cma.init p m std e : Cma G n).Aff a τ (Cma.init p (aff a τ m) (fun i => a * std i) e) := by
  have htr : ∑ i, a * std i * (a * std i) = a ^ 2 * ∑ i, std i * std i := by
    rw [Finset.mul_sum]
    exact Finset.sum_congr rfl fun i _ => by ring
  have hD : ∀ i, a * std i * Real.sqrt (n / ∑ i, a * std i * (a * std i)) = std i * Real.sqrt (n / ∑ i, std i * std i) := by
    intro i
    rw [htr, mul_comm (a ^ 2), ← div_div, Real.sqrt_div' _ (by positivity), Real.sqrt_sq ha.le]
    field_simp
  have e1 : (Cma.init p (aff a τ m) (fun i => a * std i) e : Cma G n).D = (Cma.init p m std e : Cma G n).D := by
    funext i
    simpa only [Cma.init, sumFin_real, sqrt_real, lit_real, Rat.cast_natCast] using hD i
  have e2 : (Cma.init p (aff a τ m) (fun i => a * std i) e : Cma G n).C = (Cma.init p m std e : Cma G n).C := by
    have hC : ∀ (m std : Fin n → ℝ), (Cma.init p m std e : Cma G n).C = fun i j => if i = j then (Cma.init p m std e : Cma G n).D i * (Cma.init p m std e : Cma G n).D i else lit 0 :=
      fun _ _ => rfl
    rw [hC, hC, e1]
  have e3 : (Cma.init p (aff a τ m) (fun i => a * std i) e : Cma G n).sigma = a * (Cma.init p m std e : Cma G n).sigma := by
    simp only [Cma.init, sumFin_real, sqrt_real, lit_real, Rat.cast_natCast]
    rw [htr, mul_div_assoc, Real.sqrt_mul (by positivity), Real.sqrt_sq ha.le]
  exact ⟨⟨e3, rfl, e2, rfl, e1, rfl, rfl, rfl, rfl, rfl, rfl, rfl, rfl⟩, fun h => by cases h⟩

/-- **C79.** Exact arithmetic. Change the origin (`τ`) and the unit (`a > 0`) of the parameters: the initial means and bounds become `a x + τ`, the
standard deviations `a std`, and the boundary transformer acts as before. Then, after any calls with the same fitnesses, the mean of the distribution is
`a mean + τ`, its standard deviations are `a` times the former ones, the results of the calls are the same, and the next population is `a x + τ` for the individuals `x`
of the former one. (So an objective given in the new coordinates is optimized in the same way.) -/
theorem C79_affine {opt : Int} {modulo : ℝ} {p : CmaPar ℝ} (ha : 0 < a) (hn : 1 ≤ n) (hp : CmaPar.make ℝ n opt modulo = .ok p) (m std : Fin n → ℝ)
    (hstd : ∀ i, 0 < std i) (e : G.St) (b : Bounds ℝ n) (minimize : Bool) (eig : Eig ℝ n) {cs cs' : List (CmaCall ℝ n × Res Unit)} {s : Cma G n}
    (h : Cma.Calls b minimize eig p (Cma.init p m std e) cs s)
    (hcs : List.Forall₂ (fun c c' => CmaCall.Aff a τ c.1 c'.1 ∧ c'.2 = c.2) cs cs') :
    ∃ s', Cma.Calls (b.aff a τ) minimize eig p (Cma.init p (fun i => a * m i + τ i) (fun i => a * std i) e) cs' s' ∧
      (∀ i, s'.mean i = a * s.mean i + τ i) ∧ (∀ i, s'.std i = a * s.std i) ∧ s'.C = s.C ∧ s'.sigma = a * s.sigma ∧
      ∀ tr tr', (∀ x, tr' (fun i => a * x i + τ i) = fun i => a * tr x i + τ i) →
        (s'.sample tr' (b.aff a τ) eig p).2 = (s.sample tr b eig p).2.map fun x i => a * x i + τ i := by
  obtain ⟨q1, q2, q3, q4, q5, q6, q7, q8, q9, q10, q11, q12, q13, q14, q15, q16, q17, q18, q19, q20⟩ := C51_parameters n hn opt modulo p hp
  have hw : ∑ k ∈ Finset.range p.mu, p.weights.getD k 0 = 1 := by
    rw [← q6, ← q4]
    have : p.weights = (List.range p.weights.length).map fun k => p.weights.getD k 0 := by
      apply List.ext_getElem
      · simp
      · intro k hk _
        simp [List.getElem?_eq_getElem hk]
    conv_rhs => rw [this]
    rfl
  have key : ∃ s', Cma.Calls (b.aff a τ) minimize eig p (Cma.init p (aff a τ m) (fun i => a * std i) e) cs' s' ∧ s.Aff a τ s' ∧ s.Shape p ∧ s.Inv p := by
    induction h generalizing cs' with
    | nil =>
      cases hcs
      exact ⟨_, .nil, aff_init ha p m std e, ⟨by simp [Cma.init], by simp [Cma.init], fun _ => ⟨rfl, rfl⟩⟩, init_inv hn m std hstd e⟩
    | @snoc cs s h c ih =>
      obtain ⟨c1, ⟨c', r'⟩, rfl, h1, hc⟩ := forall₂_snoc hcs
      obtain ⟨s', i1, i2, i3, i4⟩ := ih h1
      · obtain ⟨hc1, hc2⟩ := hc
        dsimp only at hc1 hc2
        have hres : (s'.call (b.aff a τ) minimize eig p c').2 = (s.call b minimize eig p c).2 ∧
            (s.call b minimize eig p c).1.Aff a τ (s'.call (b.aff a τ) minimize eig p c').1 := by
          cases hc1 with
          | sample htr => exact ⟨rfl, (aff_sample ha htr b eig p i2).1⟩
          | update fs =>
            show (s'.update p minimize fs).2 = (s.update p minimize fs).2 ∧ (s.update p minimize fs).1.Aff a τ (s'.update p minimize fs).1
            rcases s.update_cases p minimize fs with ⟨g1, g2, g3⟩ | ⟨g1, g3⟩
            · rcases s'.update_cases p minimize fs with ⟨g1', g2', g3'⟩ | ⟨g1', g3'⟩
              · rw [g3, g3']
                exact ⟨rfl, aff_update ha hw (by omega) i2 i3 g1 _ (by split <;> simp [g2])⟩
              · exact absurd ⟨i2.state.trans g1, g2⟩ g1'
            · rcases s'.update_cases p minimize fs with ⟨g1', g2', g3'⟩ | ⟨g1', g3'⟩
              · exact absurd ⟨i2.state.symm.trans g1', g2'⟩ g1
              · rw [g3, g3']
                exact ⟨rfl, i2⟩
        refine ⟨_, ?_, hres.2, call_shape b minimize eig i3 i4.gen c, call_inv hn hp b minimize eig i4 c⟩
        rw [hc2, ← hres.1]
        exact i1.snoc c'
  obtain ⟨s', h1, h2, -⟩ := key
  refine ⟨s', h1, fun i => by rw [h2.mean]; rfl, fun i => ?_, h2.C, h2.sigma, fun tr tr' htr => (aff_sample ha htr b eig p h2).2⟩
  unfold Cma.std
  rw [h2.C, h2.sigma]
  ring

end

end Spot

namespace Spot

/-- The hypotheses of C76, C77, C78 and C79 can be met: two parameters, four individuals, one sampled population, an exact eigensystem that is always up to date;
and the same in other coordinates. -/
example : ∃ (p : CmaPar ℝ) (G : GaussSrc ℝ) (e : G.St) (eig : Eig ℝ 2) (s : Cma G 2) (cs : List (CmaCall ℝ 2 × Res Unit)),
    CmaPar.make ℝ 2 4 1 = .ok p ∧ p.modulo ≤ 1 ∧ eig.Exact ∧ (∀ x, (G.next x).1 ∈ Set.Icc (-1 : ℝ) 1) ∧
    Cma.Calls ⟨fun _ => -10, fun _ => 10⟩ true eig p (Cma.init p (fun _ => 1) (fun i => i + 1) e) cs s ∧
    lastIsSample (succeeded cs) = true ∧ (∀ tr r, (CmaCall.sample tr, r) ∈ cs → tr = id) ∧
    List.Forall₂ (fun c c' => CmaCall.Aff 2 (fun _ => 3) c.1 c'.1 ∧ c'.2 = c.2) cs cs := by
  obtain ⟨p, hp, hl⟩ := C51_defined (K := ℝ) 2 4 1 (by norm_num)
  obtain ⟨eig, he⟩ := exactEig_exists 2
  let G : GaussSrc ℝ := ⟨Unit, fun _ => (1 / 2, ())⟩
  have h1 := (Cma.Calls.nil (b := (⟨fun _ => -10, fun _ => 10⟩ : Bounds ℝ 2)) (minimize := true) (eig := eig) (p := p)
    (s0 := (Cma.init p (fun _ => 1) (fun i => (i : ℝ) + 1) () : Cma G 2))).snoc (.sample id)
  have hm : p.modulo ≤ 1 := by
    unfold CmaPar.make at hp
    rw [Res.bind_eq_ok] at hp
    obtain ⟨lambda, -, hp⟩ := hp
    rw [Res.bind_eq_ok] at hp
    obtain ⟨w, -, hp⟩ := hp
    rw [Res.ok.injEq] at hp
    rw [← hp]
    simp only [lt_real, lit_real]
    norm_num
  refine ⟨p, G, (), eig, _, _, hp, hm, he, fun x => ?_, h1, ?_, ?_, ?_⟩
  · show (1 / 2 : ℝ) ∈ Set.Icc (-1 : ℝ) 1
    constructor <;> norm_num
  · rfl
  · intro tr r h
    simp only [List.nil_append, List.mem_singleton, Prod.mk.injEq, CmaCall.sample.injEq] at h
    exact h.1
  · exact .cons ⟨.sample fun x => rfl, rfl⟩ .nil

end Spot
