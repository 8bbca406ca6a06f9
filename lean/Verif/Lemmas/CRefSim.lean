import Verif.Lemmas.CRef

/-! # The distribution of `cma_optimizer` and of the reference implementation stay the same -/

set_option linter.unusedSectionVars false

namespace Spot.Ref

variable {K : Type} [Arith K] {n : Nat} {G H : GaussSrc K}

/-- The same strategy parameters; `lambda` individuals, of which `mu` are selected. -/
structure SamePar (n : Nat) (p : CmaPar K) (q : Para K) : Prop where
  N : q.N = n
  lambda : q.lambda = p.lambda
  mu : q.mu = p.mu
  mu_le : p.mu ≤ p.lambda
  pos : 2 ≤ p.lambda
  weights : ∀ k < p.mu, q.weights k = p.weights.getD k (lit 0)
  mueff : q.mueff = p.mueff
  cs : q.cs = p.cs
  ccumcov : q.ccumcov = p.ccumcov
  ccov : q.ccov = p.ccov
  damps : q.damps = p.damps
  modulo : q.modulo = p.modulo
  /-- `std::min` and `douMin` differ for NaN. -/
  ccov1 : ∀ d, douMin (q.ccov * (lit 1 / q.mucov) * (if d then (lit (q.N : ℚ) + lit (3 / 2)) / lit 3 else lit 1)) (lit 1) = Cma.ccov1 p n d
  ccovmu : ∀ d, douMin (q.ccov * (lit 1 - lit 1 / q.mucov) * (if d then (lit (q.N : ℚ) + lit (3 / 2)) / lit 3 else lit 1)) (lit 1 - Cma.ccov1 p n d) = Cma.ccovmu p n d
  /-- Whether the covariance matrix is kept diagonal. -/
  diag : ∀ g : Nat, (Arith.eq q.diagonalCov (lit 1) || Arith.le (lit (g : ℚ)) q.diagonalCov) = (decide (p.diagonalCov = 1) || decide (g ≤ p.diagonalCov))

/-- The same distribution. -/
structure SameDist (R : G.St → H.St → Prop) (p : CmaPar K) (s : Cma G n) (t : Cmaes H) : Prop where
  par : SamePar n p t.sp
  chiN : t.chiN = p.chiN
  sigma : t.sigma = s.sigma
  mean : ∀ i : Fin n, t.rgxmean i = s.mean i
  popLen : s.pop.length = p.lambda
  pop : ∀ k < p.lambda, ∀ i : Fin n, t.rgrgx k i = s.pop.getD k (fun _ => lit 0) i
  indexLen : s.index.length = p.lambda
  index : ∀ k < p.lambda, t.index k = s.index.getD k 0
  C : ∀ i j : Fin n, j ≤ i → t.C i j = s.C i j
  B : ∀ i j : Fin n, t.B i j = s.B i j
  D : ∀ i : Fin n, t.rgD i = s.D i
  pc : ∀ i : Fin n, t.rgpc i = s.pc i
  ps : ∀ i : Fin n, t.rgps i = s.ps i
  gen : t.gen = s.gen
  state : t.state = s.state
  up : t.flgEigensysIsUptodate = s.eigenUptodate
  genE : t.genOfEigensysUpdate = s.genOfEigen
  rand : R s.rng t.rand

variable {R : G.St → H.St → Prop} {p : CmaPar K} {s : Cma G n} {t : Cmaes H}

theorem SameDist.flgdiag (h : SameDist R p s t) : t.flgdiag = s.flgdiag p := by
  unfold Cmaes.flgdiag Cma.flgdiag
  rw [h.gen]
  exact h.par.diag s.gen

theorem SamePar.lam (h : SamePar n p t.sp) : t.sp.lambda.toNat = p.lambda := by rw [h.lambda]; rfl
theorem SamePar.mun (h : SamePar n p t.sp) : t.sp.mu.toNat = p.mu := by rw [h.mu]; rfl

/-! ## Sampling -/

theorem sampleLoop_last (s : Cma G n) (d : Bool) : ∀ (k : Nat) (e : G.St), s.sampleLoop d (k + 1) e =
    ((s.sampleLoop d k e).1 ++ [s.individual d (vecOf n (drawN G n (s.sampleLoop d k e).2).1)], (drawN G n (s.sampleLoop d k e).2).2)
  | 0, e => rfl
  | k + 1, e => by
    rw [show s.sampleLoop d (k + 1 + 1) e = (s.individual d (vecOf n (drawN G n e).1) :: (s.sampleLoop d (k + 1) (drawN G n e).2).1, (s.sampleLoop d (k + 1) (drawN G n e).2).2) from rfl,
      sampleLoop_last s d k]
    rfl

theorem sampleLoop_same {s s' : Cma G n} (hm : s.mean = s'.mean) (hs : s.sigma = s'.sigma) (hB : s.B = s'.B) (hD : s.D = s'.D) (d : Bool) (k : Nat) (e : G.St) :
    s.sampleLoop d k e = s'.sampleLoop d k e := by
  induction k generalizing e with
  | zero => rfl
  | succ k ih => simp only [Cma.sampleLoop, ih, Cma.individual, hm, hs, hB, hD]

theorem lists_getD_lt {α : Type} {l : List α} {k : Nat} (h : k < l.length) (a d : α) : (l ++ [a]).getD k d = l.getD k d := by
  simp [List.getD, List.getElem?_append_left h]

theorem getD_get {α : Type} {l : List α} {k : Nat} {d : α} (h : k < l.length) : l.getD k d = l[k] := by
  simp [List.getD, h]

theorem lists_getD_self {α : Type} {l : List α} {k : Nat} (h : l.length = k) (a d : α) : (l ++ [a]).getD k d = a := by
  subst h; simp

/-- One individual in the array `rgrgx`: the body of the loop of `cmaes_SamplePopulation` (cmaes.c:634-648). -/
theorem individual_same (hN : t.sp.N = n) (hsig : t.sigma = s.sigma) (hmean : ∀ i : Fin n, t.rgxmean i = s.mean i) (hB : ∀ i j : Fin n, t.B i j = s.B i j)
    (hD : ∀ i : Fin n, t.rgD i = s.D i) (d : Bool) (z : List K) :
    ∀ i : Fin n, (if d then t.rgxmean i + t.sigma * t.rgD i * z.getD i (lit 0)
      else t.rgxmean i + t.sigma * (({ t with rgdTmp := fun i => if i < n then t.rgD i * z.getD i (lit 0) else t.rgdTmp i } : Cmaes H).bz i)) = s.individual d (vecOf n z) i := by
  intro i
  subst hN
  cases d
  · simp only [Bool.false_eq_true, if_false, Cma.individual, Cmaes.bz]
    rw [hmean i, hsig]
    congr 2
    refine sumFin_congr fun j => ?_
    rw [hB i j, if_pos j.2, hD j]
    rfl
  · simp only [if_true, Cma.individual]
    rw [hmean i, hsig, hD i]
    rfl

/-- The loop over the individuals. -/
theorem popLoop (hR : G.Sim H R) (hN : t.sp.N = n) (hsig : t.sigma = s.sigma) (hmean : ∀ i : Fin n, t.rgxmean i = s.mean i) (hB : ∀ i j : Fin n, t.B i j = s.B i j)
    (hD : ∀ i : Fin n, t.rgD i = s.D i) (d : Bool) (m : Nat) (e : G.St) (he : R e t.rand) :
    ∃ X Y Z, forUp 0 m (fun iNk t =>
      let t := forUp 0 n (fun i (t : Cmaes H) =>
        if d then { t with rgrgx := set2 t.rgrgx iNk i (t.rgxmean i + t.sigma * t.rgD i * (H.next t.rand).1), rand := (H.next t.rand).2 }
        else { t with rgdTmp := set1 t.rgdTmp i (t.rgD i * (H.next t.rand).1), rand := (H.next t.rand).2 }) t
      if !d then t.mutate iNk else t) t = { t with rgrgx := X, rgdTmp := Y, rand := Z } ∧ R (s.sampleLoop d m e).2 Z ∧
      ∀ k < m, ∀ i : Fin n, X k i = (s.sampleLoop d m e).1.getD k (fun _ => lit 0) i := by
  refine forUp_inv (fun m u => ∃ X Y Z, u = { t with rgrgx := X, rgdTmp := Y, rand := Z } ∧ R (s.sampleLoop d m e).2 Z ∧
      ∀ k < m, ∀ i : Fin n, X k i = (s.sampleLoop d m e).1.getD k (fun _ => lit 0) i) (Nat.zero_le m) ⟨t.rgrgx, t.rgdTmp, t.rand, rfl, he, by intro k hk; omega⟩ ?_
  rintro m _ - - ⟨X, Y, Z, rfl, hZ, hX⟩
  obtain ⟨h1, h2⟩ := sim_drawN hR n _ _ hZ
  have hl := Cma.sampleLoop_length s d m e
  rw [sampleLoop_last]
  cases d with
  | true =>
    simp only [if_true, Bool.not_true, Bool.false_eq_true, if_false, diagLoop]
    refine ⟨_, _, _, rfl, h2, ?_⟩
    intro k hk i
    by_cases hkm : k = m
    · subst hkm
      rw [lists_getD_self hl, if_pos ⟨rfl, i.2⟩, ← individual_same (t := t) (s := s) hN hsig hmean hB hD true, h1]
      rfl
    · rw [lists_getD_lt (by omega), if_neg (by tauto)]
      exact hX k (by omega) i
  | false =>
    simp only [Bool.not_false, Bool.false_eq_true, if_false, if_true, gaussLoop, mutate_eq]
    refine ⟨_, _, _, rfl, h2, ?_⟩
    intro k hk i
    by_cases hkm : k = m
    · subst hkm
      rw [lists_getD_self hl, if_pos ⟨rfl, by rw [hN]; exact i.2⟩, ← individual_same (t := { t with rgdTmp := Y }) (s := s) hN hsig hmean hB hD false, h1]
      rfl
    · rw [lists_getD_lt (by omega), if_neg (by tauto)]
      exact hX k (by omega) i

/-- A decomposition that uses the lower triangle only, and the same one for arrays. -/
structure SameEig (eig : Eig K n) (eigR : (Nat → Nat → K) → (Nat → K) × (Nat → Nat → K)) : Prop where
  same : ∀ (C : Fin n → Fin n → K) (A : Nat → Nat → K), (∀ i j : Fin n, j ≤ i → A i j = C i j) →
    (∀ i : Fin n, (eigR A).1 i = (eig C).1 i) ∧ (∀ i j : Fin n, (eigR A).2 i j = (eig C).2 i j)

/-- The eigensystem before sampling. -/
theorem prepare_same' {eig : Eig K n} {eigR} (hE : SameEig eig eigR) (h : SameDist R p s t) (slow : Bool) (junk : Nat → K)
    (ht : Arith.lt t.sp.maxtime (lit 1) = false ∨ slow = false) :
    SameDist R p (s.prepare eig p) (if !t.flgEigensysIsUptodate then
      if !t.flgdiag then t.updateEigensystem eigR slow junk
      else
        let t := forUp 0 n (fun i (t : Cmaes H) => { t with rgD := set1 t.rgD i (Arith.sqrt (t.C i i)) }) t
        { t with flgEigensysIsUptodate := true }
    else t) := by
  have hslow : (Arith.lt t.sp.maxtime (lit 1) && slow) = false := by rcases ht with h | h <;> simp [h]
  unfold Cma.prepare Cma.updateEigen Cmaes.updateEigensystem
  rw [h.flgdiag, h.up, h.gen, h.genE, h.par.modulo, hslow]
  cases hu : s.eigenUptodate with
  | true => simpa using h
  | false =>
    cases hd : s.flgdiag p with
    | true =>
      simp only [Bool.not_false, Bool.not_true, Bool.false_eq_true, if_false, if_true]
      have e : forUp 0 n (fun i (t : Cmaes H) => { t with rgD := set1 t.rgD i (Arith.sqrt (t.C i i)) }) t =
          { t with rgD := fun i => if i < n then Arith.sqrt (t.C i i) else t.rgD i } := by
        refine forUp_inv (fun m u => u = { t with rgD := fun i => if i < m then Arith.sqrt (t.C i i) else t.rgD i }) (Nat.zero_le _) ?_ ?_
        · simp
        rintro i _ - - rfl
        simp only [Cmaes.mk.injEq, true_and, and_true]
        funext j
        by_cases hj : j = i
        · subst hj; simp
        · simp only [set1_ne _ _ hj, step_if hj]
      rw [e]
      refine { h with D := ?_, up := rfl, par := h.par, C := h.C }
      intro i
      show (if (i : Nat) < n then _ else _) = _
      rw [if_pos i.2, h.C i i le_rfl]
    | false =>
      simp only [Bool.not_false, Bool.false_eq_true, if_false, if_true]
      cases hg : Arith.lt (lit (s.gen : ℚ)) (lit (s.genOfEigen : ℚ) + p.modulo) with
      | true => simpa using h
      | false =>
        simp only [Bool.false_eq_true, if_false]
        obtain ⟨e1, e2⟩ := hE.same s.C t.C h.C
        refine { h with D := ?_, B := e2, up := rfl, gen := rfl, genE := rfl, par := h.par, C := h.C }
        intro i
        show forUp 0 t.sp.N (fun i d => set1 d i (Arith.sqrt (d i))) (eigR t.C).1 i = _
        rw [forUp_set1 0 t.sp.N (fun _ x => Arith.sqrt x), h.par.N]
        simp only [Nat.zero_le, true_and, i.2, if_true, e1]

theorem sample_same' {eig : Eig K n} {eigR} (hR : G.Sim H R) (hE : SameEig eig eigR) (h : SameDist R p s t) (slow : Bool) (junk : Nat → K)
    (ht : Arith.lt t.sp.maxtime (lit 1) = false ∨ slow = false) : SameDist R p (s.samplePopulation eig p) (t.samplePopulation eigR slow junk) := by
  have hp := prepare_same' hE h slow junk ht
  have hfl : (s.prepare eig p).flgdiag p = s.flgdiag p := by
    unfold Cma.flgdiag; rw [(Cma.prepare_same eig p s).2.1]
  unfold Cmaes.samplePopulation Cma.samplePopulation
  dsimp only
  rw [h.par.N]
  generalize hu : (if !t.flgEigensysIsUptodate then _ else _ : Cmaes H) = u at hp ⊢
  generalize hv : s.prepare eig p = v at hp hfl ⊢
  obtain ⟨X, Y, Z, e, hZ, hX⟩ := popLoop hR hp.par.N hp.sigma hp.mean hp.B hp.D t.flgdiag u.sp.lambda.toNat v.rng hp.rand
  dsimp only at e
  rw [e]
  rw [hp.par.lam] at hZ hX
  rw [h.flgdiag] at hZ hX
  rw [hfl]
  have hst : u.state = v.state := hp.state
  have hg : u.gen = v.gen := hp.gen
  have fin : ∀ g, SameDist R p { v with pop := (v.sampleLoop (s.flgdiag p) p.lambda v.rng).1, rng := (v.sampleLoop (s.flgdiag p) p.lambda v.rng).2, gen := g, state := 1 }
      { ({ u with rgrgx := X, rgdTmp := Y, rand := Z } : Cmaes H) with gen := g, state := 1 } := fun g =>
    { hp with pop := hX, popLen := Cma.sampleLoop_length _ _ _ _, gen := rfl, state := rfl, rand := hZ, par := hp.par }
  by_cases hc : v.state = 3 ∨ v.gen = 0
  · rw [if_pos (show u.state = 3 ∨ u.gen = 0 by rw [hst, hg]; exact hc), if_pos hc, ← hg]
    exact fin (u.gen + 1)
  · rw [if_neg (show ¬(u.state = 3 ∨ u.gen = 0) by rw [hst, hg]; exact hc), if_neg hc, ← hg]
    exact fin u.gen

theorem resample_same' (hR : G.Sim H R) (h : SameDist R p s t) {k : Nat} (hk : k < p.lambda) :
    ∃ t', t.reSampleSingle k = .ok t' ∧ SameDist R p (s.resampleSingle k) t' := by
  unfold Cmaes.reSampleSingle
  rw [if_neg (by rw [h.par.lambda]; omega)]
  obtain ⟨h1, h2⟩ := sim_drawN hR n _ _ h.rand
  refine ⟨_, rfl, ?_⟩
  rw [h.par.N, gaussLoop, mutate_eq]
  unfold Cma.resampleSingle
  refine { h with pop := ?_, popLen := by simp [h.popLen], rand := h2, par := h.par }
  intro a ha i
  have hl : a < (s.pop.set k (s.individual false (vecOf n (drawN G n s.rng).1))).length := by simp [h.popLen, ha]
  by_cases hak : a = k
  · subst hak
    show (if a = (a : Int).toNat ∧ (i : Nat) < t.sp.N then _ else _) = _
    rw [if_pos ⟨rfl, by rw [h.par.N]; exact i.2⟩]
    rw [getD_get hl, List.getElem_set_self, ← individual_same (t := t) (s := s) h.par.N h.sigma h.mean h.B h.D false, h1]
    rfl
  · show (if a = (k : Int).toNat ∧ (i : Nat) < t.sp.N then _ else _) = _
    rw [if_neg (by simp; omega)]
    rw [getD_get hl, List.getElem_set_ne (by omega), h.pop a ha i, getD_get (by rw [h.popLen]; exact ha)]

/-! ## Sorting -/

theorem insertDown_same (f : Nat → Dbl) (i : Nat) : ∀ (j : Nat) (x : Nat → Nat) (idx : List Nat), j < idx.length → (∀ k < idx.length, x k = idx.getD k 0) →
    ∀ k < idx.length, insertDown f i j x k = (sortInsert f i j idx).getD k 0 := by
  have hset : ∀ (j v : Nat) (x : Nat → Nat) (idx : List Nat), j < idx.length → (∀ k < idx.length, x k = idx.getD k 0) →
      ∀ k < idx.length, set1 x j v k = (idx.set j v).getD k 0 := by
    intro j v x idx hj hx k hk
    rw [getD_get (by simpa using hk), List.getElem_set]
    by_cases h : j = k
    · subst h; simp
    · rw [if_neg h, set1_ne _ _ (by omega), hx k hk, getD_get hk]
  intro j
  induction j with
  | zero => intro x idx hj hx; exact hset 0 i x idx hj hx
  | succ j ih =>
    intro x idx hj hx k hk
    unfold insertDown sortInsert
    rw [hx j (by omega)]
    split
    · exact hset (j + 1) i x idx hj hx k hk
    · exact ih _ _ (by simp; omega) (by simpa using hset (j + 1) _ x idx hj hx) k (by simpa using hk)

theorem sorted_same (fs : List Dbl) (x : Nat → Nat) (idx : List Nat) (hl : 1 ≤ idx.length) (hx : ∀ k < idx.length, x k = idx.getD k 0) :
    ∀ k < idx.length, sorted (fitAt fs) x idx.length k = (sortedIndex fs idx idx.length).getD k 0 := by
  have outer : ∀ m, m + 1 ≤ idx.length → ∀ k < idx.length, forUp 1 (m + 1) (fun i x => insertDown (fitAt fs) i i x) (set1 x 0 0) k =
      (sortOuter (fitAt fs) m 1 (idx.set 0 0)).getD k 0 := by
    intro m
    induction m with
    | zero =>
      intro _ k hk
      rw [forUp_of_le (Nat.le_refl _)]
      exact (insertDown_same (fitAt fs) 0 0 x idx (by omega) hx k hk)
    | succ m ih =>
      intro hm k hk
      rw [forUp_succ (by omega), sortOuter_last]
      have hle : (sortOuter (fitAt fs) m 1 (idx.set 0 0)).length = idx.length := by rw [sortOuter_length]; simp
      have := insertDown_same (fitAt fs) (m + 1) (m + 1) (forUp 1 (m + 1) (fun i x => insertDown (fitAt fs) i i x) (set1 x 0 0))
        (sortOuter (fitAt fs) m 1 (idx.set 0 0)) (by omega) (by rw [hle]; exact ih (by omega)) k (by omega)
      rw [this, show 1 + m = m + 1 by omega]
  intro k hk
  unfold sorted sortedIndex
  have := outer (idx.length - 1) (by omega) k hk
  rwa [show idx.length - 1 + 1 = idx.length by omega] at this

/-! ## Updating -/

theorem rank_same (h : SameDist R p s t) (hst : s.state = 1) (fs : List Dbl) :
    SameDist R p (s.rank p fs) (t.rank (fitAt fs)) ∧ (∀ k < p.lambda, (s.rank p fs).index.getD k 0 < p.lambda) := by
  have hlam := h.par.lam
  have hidx := sorted_same fs t.index s.index (by rw [h.indexLen]; have := h.par.pos; omega) (by rw [h.indexLen]; exact h.index)
  rw [h.indexLen] at hidx
  have hperm := (sortedIndex_spec fs s.index p.lambda h.indexLen).1
  have hplen : (sortedIndex fs s.index p.lambda).length = p.lambda := by rw [hperm.length_eq, List.length_range]
  have hlt : ∀ k < p.lambda, (sortedIndex fs s.index p.lambda).getD k 0 < p.lambda := by
    intro k hk
    rw [getD_get (by omega)]
    exact List.mem_range.1 (hperm.mem_iff.1 (List.getElem_mem _))
  refine ⟨?_, hlt⟩
  unfold Cmaes.rank
  dsimp only
  rw [if_pos (show t.state = 1 by rw [h.state, hst]), assign_eq]
  have hpos : 0 < p.lambda := by have := h.par.pos; omega
  have hval : ∀ k < p.lambda, (if sorted (fitAt fs) t.index p.lambda k < p.lambda then fitAt fs (sorted (fitAt fs) t.index p.lambda k)
      else t.rgFuncValue (sorted (fitAt fs) t.index p.lambda k)) = fitAt fs ((sortedIndex fs s.index p.lambda).getD k 0) := by
    intro k hk
    rw [hidx k hk, if_pos (hlt k hk)]
  have hflat : SameDist R p (s.rank p fs) (({ ({ t with countevals := t.countevals + t.sp.lambda.toNat, rgFuncValue := fun i => if i < t.sp.lambda.toNat then fitAt fs i else t.rgFuncValue i } : Cmaes H) with
      index := sorted (fitAt fs) t.index t.sp.lambda.toNat } : Cmaes H).flat) := by
    unfold Cmaes.flat Cma.rank
    dsimp only
    simp only [hlam, hval 0 hpos, hval (p.lambda / 2) (Nat.div_lt_self hpos (by decide))]
    split
    · exact { h with index := hidx, indexLen := hplen, sigma := by dsimp only; rw [h.sigma, h.par.cs, h.par.damps], par := h.par }
    · exact { h with index := hidx, indexLen := hplen, sigma := h.sigma, par := h.par }
  unfold Cmaes.best
  split
  · exact { hflat with par := hflat.par }
  · exact hflat

/-- The same distribution, with the means before and after the step. -/
structure Mid (R : G.St → H.St → Prop) (p : CmaPar K) (s : Cma G n) (t : Cmaes H) : Prop extends SameDist R p s t where
  sel : ∀ k < p.lambda, s.index.getD k 0 < p.lambda
  xold : ∀ i : Fin n, t.rgxold i = s.xold i
  bdz : ∀ i : Fin n, t.rgBDz i = s.bdz p i

theorem ranked_same (h : SameDist R p s t) (sel : ∀ k < p.lambda, s.index.getD k 0 < p.lambda) {k : Nat} (hk : k < p.mu) (i : Fin n) :
    t.rgrgx (t.index k) i = s.ranked k i := by
  have hkl : k < p.lambda := lt_of_lt_of_le hk h.par.mu_le
  rw [h.index k hkl, h.pop _ (sel k hkl) i]
  rfl

theorem recombine_same (h : SameDist R p s t) (sel : ∀ k < p.lambda, s.index.getD k 0 < p.lambda) : Mid R p (s.move p) t.recombine := by
  have hc : ∀ i : Fin n, t.centroid i = s.newMean p i := by
    intro i
    unfold Cmaes.centroid Cma.newMean
    rw [h.par.mun]
    refine sumLoop_congr fun k hk => ?_
    rw [h.par.weights k hk, ranked_same h sel hk]
  rw [recombine_eq]
  have hi : ∀ i : Fin n, (i : Nat) < t.sp.N := by intro i; rw [h.par.N]; exact i.2
  refine { h with mean := ?_, par := h.par, sel := sel, xold := ?_, bdz := ?_ }
  · intro i; show (if (i : Nat) < t.sp.N then _ else _) = _; rw [if_pos (hi i), hc]; rfl
  · intro i; show (if (i : Nat) < t.sp.N then _ else _) = _; rw [if_pos (hi i), h.mean]; rfl
  · intro i
    show (if (i : Nat) < t.sp.N then _ else _) = _
    rw [if_pos (hi i)]
    unfold Cmaes.newBDz Cma.bdz
    rw [hc, h.mean, h.sigma, h.par.mueff]
    rfl

theorem whiten_same (h : Mid R p s t) : Mid R p { s with ps := s.newPs p } ((t.whiten (s.flgdiag p)).cumulateSigma (s.flgdiag p)) := by
  have hN := h.par.N
  have hi : ∀ i : Fin n, (i : Nat) < t.sp.N := by intro i; rw [hN]; exact i.2
  have hw : ∀ i : Fin n, t.white (s.flgdiag p) i = s.whiten p i := by
    intro i
    unfold Cmaes.white Cma.whiten
    rw [h.D]
    cases s.flgdiag p with
    | true => simp [h.bdz]
    | false =>
      simp only [Bool.not_false, if_true, Bool.false_eq_true, if_false]
      congr 1
      revert i h
      subst hN
      intro h i
      exact sumFin_congr fun j => by rw [h.B j i, h.bdz j]
  rw [whiten_eq, cumulateSigma_eq]
  refine { h with ps := ?_, par := h.par, xold := h.xold, bdz := h.bdz, sel := h.sel }
  intro i
  show (if (i : Nat) < t.sp.N then _ else _) = _
  rw [if_pos (hi i)]
  unfold Cmaes.newPs Cma.newPs
  dsimp only
  rw [h.par.cs, h.ps]
  congr 2
  generalize s.flgdiag p = d at hw ⊢
  cases d with
  | true => simp only [Bool.not_true, Bool.false_eq_true, if_false, if_true, hi i]; exact hw i
  | false =>
    simp only [Bool.not_false, if_true, Bool.false_eq_true, if_false]
    subst hN
    refine sumFin_congr fun j => ?_
    rw [h.B i j, if_pos j.2]
    exact congrArg _ (hw j)

theorem psxps_same (h : SameDist R p s t) : t.psxps = s.psxps := by
  unfold Cmaes.psxps Cma.psxps
  have hN := h.par.N
  subst hN
  rw [forUp_sum]
  exact sumFin_congr fun i => by rw [h.ps i]

theorem hsig_same (h : SameDist R p s t) : t.hsig t.psxps = s.hsig p := by
  unfold Cmaes.hsig Cma.hsig
  rw [psxps_same h, h.par.cs, h.gen, h.chiN, h.par.N, show (14 / 10 : ℚ) = 7 / 5 by norm_num]

theorem cumulateC_same (h : Mid R p s t) : Mid R p { s with pc := s.newPc p } (t.cumulateC (s.hsig p)) := by
  rw [cumulateC_eq]
  refine { h with pc := ?_, par := h.par, xold := h.xold, bdz := h.bdz, sel := h.sel }
  intro i
  show (if (i : Nat) < t.sp.N then _ else _) = _
  rw [if_pos (by rw [h.par.N]; exact i.2)]
  unfold Cmaes.newPc Cma.newPc
  rw [h.par.ccumcov, h.pc, h.bdz]
  congr 3
  split <;> rfl

theorem foldl_congr {α β : Type} {f g : β → α → β} : ∀ {l : List α} (a : β), (∀ b, ∀ x ∈ l, f b x = g b x) → l.foldl f a = l.foldl g a
  | [], _, _ => rfl
  | x :: l, a, h => by
    rw [List.foldl_cons, List.foldl_cons, h a x (by simp)]
    exact foldl_congr _ fun b y hy => h b y (by simp [hy])

theorem adapt_same (h : Mid R p s t) (hs : Bool) : Mid R p (s.adaptC p hs) (t.adaptC2 hs) := by
  have hc1 : ∀ d, t.ccov1 d = Cma.ccov1 p n d := fun d => h.par.ccov1 d
  have hcm : ∀ d, t.ccovmu d = Cma.ccovmu p n d := by
    intro d
    unfold Cmaes.ccovmu
    rw [hc1]
    exact h.par.ccovmu d
  have hfl := h.toSameDist.flgdiag
  rw [adaptC2_eq]
  unfold Cma.adaptC
  rw [h.par.ccov]
  cases hz : Arith.eq p.ccov (lit 0) with
  | true => simpa using h
  | false =>
    simp only [Bool.false_eq_true, if_false]
    refine { h with C := ?_, up := rfl, par := h.par, xold := h.xold, bdz := h.bdz, sel := h.sel }
    intro i j hij
    have hN : (i : Nat) < t.sp.N := by rw [h.par.N]; exact i.2
    have hji : (j : Nat) ≤ i := hij
    have hnew : t.newC hs i j = s.newC p hs i j := by
      unfold Cmaes.newC Cma.newC
      rw [hc1, hcm, hfl, h.par.mun, h.C i j hij, h.pc i, h.pc j, h.par.ccumcov, h.sigma]
      dsimp only
      have e : (lit (1 - (if hs = true then 1 else 0)) : K) = if hs then lit 0 else lit 1 := by cases hs <;> norm_num
      rw [e]
      unfold forUp
      rw [Nat.sub_zero, ← List.range_eq_range']
      refine foldl_congr _ fun a k hk => ?_
      beta_reduce
      rw [h.par.weights k (List.mem_range.1 hk), ranked_same h.toSameDist h.sel (List.mem_range.1 hk) i, ranked_same h.toSameDist h.sel (List.mem_range.1 hk) j, h.xold i, h.xold j]
    show (if (i : Nat) < t.sp.N ∧ (if t.flgdiag then (i : Nat) else 0) ≤ (j : Nat) ∧ (j : Nat) ≤ i then t.newC hs i j else t.C i j) = if (if s.flgdiag p then j = i else j ≤ i) then s.newC p hs i j else s.C i j
    rw [hfl, hnew, h.C i j hij]
    congr 1
    cases s.flgdiag p with
    | true => simp only [if_true, eq_iff_iff, Fin.ext_iff]; omega
    | false => simp only [Bool.false_eq_true, if_false, eq_iff_iff, Fin.le_def]; omega

theorem adapt_same' (h : SameDist R p s t) (sel : ∀ k < p.lambda, s.index.getD k 0 < p.lambda) : SameDist R p (s.adapt p) (t.adapt (s.flgdiag p)) := by
  have h2 := recombine_same h sel
  have h3 := whiten_same h2
  rw [show (s.move p).flgdiag p = s.flgdiag p from rfl] at h3
  unfold Cmaes.adapt Cma.adapt
  dsimp only
  generalize Cmaes.cumulateSigma (s.flgdiag p) (Cmaes.whiten (s.flgdiag p) t.recombine) = v at h3 ⊢
  have hps := psxps_same h3.toSameDist
  have hhs := hsig_same h3.toSameDist
  rw [hhs, hps]
  have h4 := cumulateC_same h3
  have h5 := adapt_same h4 (Cma.hsig p { s.move p with ps := (s.move p).newPs p })
  have hpath : s.paths p = { ({ s.move p with ps := (s.move p).newPs p } : Cma G n) with pc := Cma.newPc p { s.move p with ps := (s.move p).newPs p } } := rfl
  have hs2 : (s.paths p).hsig p = Cma.hsig p { s.move p with ps := (s.move p).newPs p } := rfl
  rw [hs2, hpath]
  have hpx : ∀ b, Cma.psxps (Cma.adaptC p ({ ({ s.move p with ps := (s.move p).newPs p } : Cma G n) with pc := Cma.newPc p { s.move p with ps := (s.move p).newPs p } }) b) =
      Cma.psxps ({ s.move p with ps := (s.move p).newPs p } : Cma G n) := by
    intro b
    unfold Cma.adaptC
    split <;> rfl
  refine { h5.toSameDist with sigma := ?_, state := rfl, par := h5.par, pop := h5.pop }
  show _ * _ = _ * _
  rw [h5.sigma, h5.chiN, h5.par.cs, h5.par.damps, hpx]

theorem update_same' (h : SameDist R p s t) (hst : s.state = 1) (fs : List Dbl) :
    ∃ t', t.updateDistribution (fitAt fs) = .ok t' ∧ SameDist R p ((s.rank p fs).adapt p) t' := by
  unfold Cmaes.updateDistribution
  rw [if_neg (by rw [h.state, hst]; decide)]
  obtain ⟨h1, sel⟩ := rank_same h hst fs
  refine ⟨_, rfl, ?_⟩
  rw [show t.flgdiag = (s.rank p fs).flgdiag p by rw [h.flgdiag]; rfl]
  exact adapt_same' h1 sel

end Spot.Ref
