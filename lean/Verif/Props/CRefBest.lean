import Verif.Props.CRef

/-!
# C112: the best function value

`fbestever` of the reference implementation and `best_fitness` of the optimizer.
-/

namespace Spot.Ref

section keeps
variable {K : Type} [Arith K] {n : Nat} {H : GaussSrc K}

/-- The loops of the reference implementation that do not touch the counters and the best value. -/
structure Keeps (t u : Cmaes H) : Prop where
  best : u.fbestever = t.fbestever
  gen : u.gen = t.gen
  state : u.state = t.state

theorem Keeps.refl (t : Cmaes H) : Keeps t t := ⟨rfl, rfl, rfl⟩
theorem Keeps.trans {t u v : Cmaes H} (h : Keeps t u) (k : Keeps u v) : Keeps t v := ⟨k.1.trans h.1, k.2.trans h.2, k.3.trans h.3⟩

theorem keeps_loop (a b : Nat) {f : Nat → Cmaes H → Cmaes H} (h : ∀ i t, Keeps t (f i t)) (t : Cmaes H) : Keeps t (forUp a b f t) := by
  by_cases hab : a ≤ b
  · exact forUp_inv (fun _ u => Keeps t u) hab (.refl t) fun i u _ _ hu => hu.trans (h i u)
  · rw [forUp_of_le (by omega)]; exact .refl t

theorem keeps_loop' {a b : Nat} {f : Nat → Cmaes H → Cmaes H} {t u : Cmaes H} (h : ∀ i t, Keeps t (f i t)) (k : Keeps t u) : Keeps t (forUp a b f u) := k.trans (keeps_loop a b h u)

theorem keeps_mutate (k : Nat) (t : Cmaes H) : Keeps t (t.mutate k) := by
  unfold Cmaes.mutate
  (apply keeps_loop; intro _ _; exact ⟨rfl, rfl, rfl⟩)

theorem keeps_eigensystem (eig : (Nat → Nat → K) → (Nat → K) × (Nat → Nat → K)) (slow : Bool) (junk : Nat → K) (t : Cmaes H) : Keeps t (t.updateEigensystem eig slow junk) := by
  unfold Cmaes.updateEigensystem
  dsimp only
  repeat' split
  all_goals first
    | exact .refl _
    | exact ⟨rfl, rfl, rfl⟩

theorem keeps_reSample {i : Int} {t u : Cmaes H} (h : t.reSampleSingle i = .ok u) : Keeps t u := by
  unfold Cmaes.reSampleSingle at h
  split at h
  · cases h
  · cases h
    refine Keeps.trans ?_ (keeps_mutate _ _)
    apply keeps_loop; intro _ _; exact ⟨rfl, rfl, rfl⟩

theorem keeps_retry (tr : (Fin n → K) → Fin n → K) (b : Bounds K n) (k : Nat) : ∀ (m : Nat) (t : Cmaes H) (r : Cmaes H × (Fin n → K)), Cmaes.retry tr b k m t = .ok r → Keeps t r.1
  | 0, t, r, h => by cases h; exact ⟨rfl, rfl, rfl⟩
  | m + 1, t, r, h => by
    rw [Cmaes.retry] at h
    split at h
    · cases h; exact .refl t
    · obtain ⟨u, h1, h2⟩ := Res.bind_eq_ok.1 h
      exact (keeps_reSample h1).trans (keeps_retry tr b k m u r h2)

theorem keeps_retryAll (tr : (Fin n → K) → Fin n → K) (b : Bounds K n) : ∀ (ks : List Nat) (t : Cmaes H) (r : Cmaes H × List (Fin n → K)), Cmaes.retryAll tr b ks t = .ok r → Keeps t r.1
  | [], t, r, h => by cases h; exact .refl t
  | k :: ks, t, r, h => by
    rw [Cmaes.retryAll] at h
    obtain ⟨u, h1, h2⟩ := Res.bind_eq_ok.1 h
    obtain ⟨v, h3, h4⟩ := Res.bind_eq_ok.1 h2
    cases h4
    exact (keeps_retry tr b k 100 t u h1).trans (keeps_retryAll tr b ks u.1 v h3)

/-- Sampling: the counter of the generations is increased after an update. -/
theorem sampleWithin_counters {tr : (Fin n → K) → Fin n → K} {b : Bounds K n} {eig : (Nat → Nat → K) → (Nat → K) × (Nat → Nat → K)} {junk : Nat → K} {t : Cmaes H}
    {r : Cmaes H × List (Fin n → K)} (h : t.sampleWithin tr b eig junk = .ok r) :
    r.1.fbestever = t.fbestever ∧ r.1.state = 1 ∧ r.1.gen = if t.state = 3 ∨ t.gen = 0 then t.gen + 1 else t.gen := by
  have k := keeps_retryAll tr b _ _ _ h
  rw [k.best, k.gen, k.state]
  unfold Cmaes.samplePopulation
  dsimp only
  generalize hu : (if (!t.flgEigensysIsUptodate) = true then
      if (!t.flgdiag) = true then t.updateEigensystem eig false junk
      else { forUp 0 t.sp.N (fun i (t : Cmaes H) => { t with rgD := set1 t.rgD i (Arith.sqrt (t.C i i)) }) t with flgEigensysIsUptodate := true }
    else t) = u
  have k1 : Keeps t u := by
    rw [← hu]
    split
    · split
      · exact keeps_eigensystem _ _ _ _
      · have : Keeps t (forUp 0 t.sp.N (fun i (t : Cmaes H) => { t with rgD := set1 t.rgD i (Arith.sqrt (t.C i i)) }) t) := by
          apply keeps_loop; intro _ _; exact ⟨rfl, rfl, rfl⟩
        exact ⟨this.best, this.gen, this.state⟩
    · exact .refl t
  generalize hv : forUp 0 u.sp.lambda.toNat (fun iNk (u : Cmaes H) =>
      if (!t.flgdiag) = true then
        (forUp 0 t.sp.N (fun i (t' : Cmaes H) =>
          if t.flgdiag = true then { t' with rgrgx := set2 t'.rgrgx iNk i (t'.rgxmean i + t'.sigma * t'.rgD i * (H.next t'.rand).1), rand := (H.next t'.rand).2 }
          else { t' with rgdTmp := set1 t'.rgdTmp i (t'.rgD i * (H.next t'.rand).1), rand := (H.next t'.rand).2 }) u).mutate iNk
      else
        forUp 0 t.sp.N (fun i (t' : Cmaes H) =>
          if t.flgdiag = true then { t' with rgrgx := set2 t'.rgrgx iNk i (t'.rgxmean i + t'.sigma * t'.rgD i * (H.next t'.rand).1), rand := (H.next t'.rand).2 }
          else { t' with rgdTmp := set1 t'.rgdTmp i (t'.rgD i * (H.next t'.rand).1), rand := (H.next t'.rand).2 }) u) u = v
  have k2 : Keeps u v := by
    rw [← hv]
    refine keeps_loop _ _ (fun i w => ?_) _
    have kk : ∀ w : Cmaes H, Keeps w (forUp 0 t.sp.N (fun j (t' : Cmaes H) =>
          if t.flgdiag = true then { t' with rgrgx := set2 t'.rgrgx i j (t'.rgxmean j + t'.sigma * t'.rgD j * (H.next t'.rand).1), rand := (H.next t'.rand).2 }
          else { t' with rgdTmp := set1 t'.rgdTmp j (t'.rgD j * (H.next t'.rand).1), rand := (H.next t'.rand).2 }) w) := fun w => by
      refine keeps_loop _ _ (fun j w => ?_) w
      split <;> exact ⟨rfl, rfl, rfl⟩
    split
    · exact (kk w).trans (keeps_mutate _ _)
    · exact kk w
  have k3 := k1.trans k2
  rw [k3.gen, k3.state]
  split
  · exact ⟨k3.best, rfl, by simp [k3.gen]⟩
  · exact ⟨k3.best, rfl, k3.gen⟩

theorem adapt_counters (d : Bool) (t : Cmaes H) : (t.adapt d).fbestever = t.fbestever ∧ (t.adapt d).gen = t.gen ∧ (t.adapt d).state = 3 := by
  unfold Cmaes.adapt
  dsimp only
  have k1 : Keeps t t.recombine := by
    unfold Cmaes.recombine
    refine keeps_loop _ _ (fun i u => ?_) t
    dsimp only
    have := keeps_loop (H := H) 0 u.sp.mu.toNat (f := fun iNk (t : Cmaes H) => { t with rgxmean := set1 t.rgxmean i (t.rgxmean i + t.sp.weights iNk * t.rgrgx (t.index iNk) i) })
      (fun i u => ⟨rfl, rfl, rfl⟩) { u with rgxold := set1 u.rgxold i (u.rgxmean i), rgxmean := set1 u.rgxmean i (lit 0) }
    exact ⟨this.best, this.gen, this.state⟩
  have k2 : ∀ t : Cmaes H, Keeps t (t.whiten d) := fun t => by unfold Cmaes.whiten; (apply keeps_loop; intro _ _; exact ⟨rfl, rfl, rfl⟩)
  have k3 : ∀ t : Cmaes H, Keeps t (t.cumulateSigma d) := fun t => by unfold Cmaes.cumulateSigma; (apply keeps_loop; intro _ _; exact ⟨rfl, rfl, rfl⟩)
  have k4 : ∀ (t : Cmaes H) s, Keeps t (t.cumulateC s) := fun t s => by unfold Cmaes.cumulateC; (apply keeps_loop; intro _ _; exact ⟨rfl, rfl, rfl⟩)
  have k5 : ∀ (t : Cmaes H) s, Keeps t (t.adaptC2 s) := fun t s => by
    unfold Cmaes.adaptC2
    dsimp only
    split
    · have hf : Keeps t { t with flgEigensysIsUptodate := false } := ⟨rfl, rfl, rfl⟩
      refine hf.trans ?_
      apply keeps_loop
      intro i u
      apply keeps_loop
      intro j v
      refine keeps_loop' ?_ ?_
      · intro _ _
        exact ⟨rfl, rfl, rfl⟩
      · exact ⟨rfl, rfl, rfl⟩
    · exact .refl t
  have k := fun s1 s2 => k1.trans ((k2 _).trans ((k3 _).trans ((k4 _ s1).trans (k5 _ s2))))
  exact ⟨(k _ _).best, (k _ _).gen, rfl⟩
end keeps

section order

/-- The smaller of two values. -/
def minD (a b : Dbl) : Dbl := if Dbl.lt a b then a else b

theorem minD_assoc {a b c : Dbl} (ha : a ≠ .nan) (hb : b ≠ .nan) (hc : c ≠ .nan) : minD a (minD b c) = minD (minD a b) c := by
  unfold minD
  cases a <;> cases b <;> cases c <;> simp_all [Dbl.lt] <;> split_ifs <;> simp_all <;> linarith

theorem dlt_antisymm {a b : Dbl} (ha : a ≠ .nan) (hb : b ≠ .nan) (h1 : Dbl.lt a b = false) (h2 : Dbl.lt b a = false) : a = b := by
  cases a <;> cases b <;> simp_all [Dbl.lt]
  exact le_antisymm h2 h1

theorem dlt_false_trans {a b c : Dbl} (hb : b ≠ .nan) (h1 : Dbl.lt b a = false) (h2 : Dbl.lt c b = false) : Dbl.lt c a = false := by
  cases a <;> cases b <;> cases c <;> simp_all [Dbl.lt]
  linarith

/-- The value that the reference implementation, which minimizes, gets for the fitness `v`. -/
def cost (info : ObjInfo) (v : Dbl) : Dbl := if info.minimize then v else v.neg

theorem cost_worst (info : ObjInfo) : cost info info.worstFitness = .fin Dbl.maxQ := by
  unfold cost ObjInfo.worstFitness
  split <;> simp [Dbl.neg]

theorem isBetter_cost (info : ObjInfo) (a b : Dbl) : info.isBetter a b = Dbl.lt (cost info a) (cost info b) := by
  unfold cost ObjInfo.isBetter
  split
  · rfl
  · rw [neg_lt]

theorem cost_not_nan (info : ObjInfo) {v : Dbl} (h : v ≠ .nan) : cost info v ≠ .nan := by
  unfold cost
  split
  · exact h
  · cases v <;> simp_all [Dbl.neg]

theorem bestOf_spec (info : ObjInfo) {fs : List Dbl} (hne : fs ≠ []) (hn : ∀ x ∈ fs, x ≠ .nan) : bestOf info fs ∈ fs ∧ ∀ x ∈ fs, Dbl.lt (cost info x) (cost info (bestOf info fs)) = false := by
  cases fs with
  | nil => exact absurd rfl hne
  | cons a xs =>
    unfold bestOf
    have key : ∀ (xs pre : List Dbl) (b : Dbl), (∀ x ∈ pre ++ xs, x ≠ .nan) → b ∈ pre → (∀ x ∈ pre, Dbl.lt (cost info x) (cost info b) = false) →
        xs.foldl (fun b y => if info.isBetter y b then y else b) b ∈ pre ++ xs ∧
        ∀ x ∈ pre ++ xs, Dbl.lt (cost info x) (cost info (xs.foldl (fun b y => if info.isBetter y b then y else b) b)) = false := by
      intro xs
      induction xs with
      | nil => intro pre b _ h1 h2; simpa using ⟨h1, h2⟩
      | cons y ys ih =>
        intro pre b hn h1 h2
        have hb : cost info b ≠ .nan := cost_not_nan info (hn b (by simp [h1]))
        have hy : cost info y ≠ .nan := cost_not_nan info (hn y (by simp))
        rw [List.foldl_cons, show pre ++ y :: ys = pre ++ [y] ++ ys by simp]
        rw [show pre ++ y :: ys = pre ++ [y] ++ ys by simp] at hn
        split
        · rename_i hlt
          rw [isBetter_cost] at hlt
          refine ih (pre ++ [y]) y hn (by simp) fun x hx => ?_
          rcases List.mem_append.1 hx with hx | hx
          · exact dlt_false_trans hb (by cases h : cost info b <;> cases h' : cost info y <;> simp_all [Dbl.lt] <;> linarith) (h2 x hx)
          · rw [List.mem_singleton.1 hx]; cases h' : cost info y <;> simp [Dbl.lt]
        · rename_i hlt
          rw [isBetter_cost, Bool.not_eq_true] at hlt
          refine ih (pre ++ [y]) b hn (by simp [h1]) fun x hx => ?_
          rcases List.mem_append.1 hx with hx | hx
          · exact h2 x hx
          · rw [List.mem_singleton.1 hx]; exact hlt
    exact key xs [a] a (by simpa using hn) (by simp) (by intro x hx; rw [List.mem_singleton.1 hx]; cases h' : cost info a <;> simp [Dbl.lt])

end order

section
variable [Libm] {n : Nat} {G H : GaussSrc Dbl} {R : G.St → H.St → Prop} {p : CmaPar Dbl}

theorem rank_best {s : Cma G n} {t : Cmaes H} (h : SameDist R p s t) (gs : List Dbl) (hl : gs.length = p.lambda) (hn : ∀ x ∈ gs, x ≠ .nan) :
    ∃ f ∈ gs, (∀ x ∈ gs, Dbl.lt x f = false) ∧ (t.rank (fitAt gs)).fbestever = if Dbl.lt f t.fbestever || decide (t.gen = 1) then f else t.fbestever := by
  have hlam := h.par.lam
  have hpos : 0 < p.lambda := by have := h.par.pos; omega
  obtain ⟨hperm, hpair⟩ := sortedIndex_spec gs s.index p.lambda h.indexLen
  have hidx := sorted_same gs t.index s.index (by rw [h.indexLen]; omega) (by rw [h.indexLen]; exact h.index)
  rw [h.indexLen] at hidx
  have hplen : (sortedIndex gs s.index p.lambda).length = p.lambda := by rw [hperm.length_eq, List.length_range]
  have h0 := hidx 0 hpos
  obtain ⟨a, l, hal⟩ : ∃ a l, sortedIndex gs s.index p.lambda = a :: l := by
    cases h : sortedIndex gs s.index p.lambda with
    | nil => rw [h] at hplen; simp at hplen; omega
    | cons a l => exact ⟨a, l, rfl⟩
  rw [hal] at hperm hpair h0
  have ha : a < p.lambda := List.mem_range.1 (hperm.mem_iff.1 (by simp))
  have hfit : ∀ k (hk : k < p.lambda), fitAt gs k = gs[k]'(by omega) := fun k hk => by
    unfold fitAt; rw [getD_get (by omega)]
  refine ⟨fitAt gs a, by rw [hfit a ha]; exact List.getElem_mem _, fun x hx => ?_, ?_⟩
  · obtain ⟨k, hk, rfl⟩ := List.getElem_of_mem hx
    rw [← hfit k (by omega)]
    rcases List.mem_cons.1 (hperm.mem_iff.2 (List.mem_range.2 (show k < p.lambda by omega))) with rfl | hm
    · cases h' : fitAt gs k <;> simp [Dbl.lt]
    · exact List.rel_of_pairwise_cons hpair hm
  · unfold Cmaes.rank
    dsimp only
    have hsame : ∀ u : Cmaes H, (u.flat.rgFuncValue = u.rgFuncValue ∧ u.flat.index = u.index ∧ u.flat.fbestever = u.fbestever ∧ u.flat.gen = u.gen) := fun u => by
      unfold Cmaes.flat; split <;> exact ⟨rfl, rfl, rfl, rfl⟩
    have hb : ∀ u : Cmaes H, u.best.fbestever = if Dbl.lt (u.rgFuncValue (u.index 0)) u.fbestever || decide (u.gen = 1) then u.rgFuncValue (u.index 0) else u.fbestever := fun u => by
      unfold Cmaes.best; split <;> rfl
    have hu : ∀ u : Cmaes H, u.sp = t.sp → u.index = t.index → u.fbestever = t.fbestever → u.gen = t.gen →
        ({ u.assign (fitAt gs) with index := sorted (fitAt gs) (u.assign (fitAt gs)).index (u.assign (fitAt gs)).sp.lambda.toNat } : Cmaes H).flat.best.fbestever =
          if Dbl.lt (fitAt gs a) t.fbestever || decide (t.gen = 1) then fitAt gs a else t.fbestever := by
      intro u e1 e2 e3 e4
      rw [hb, assign_eq]
      simp only [(hsame _).1, (hsame _).2.1, (hsame _).2.2.1, (hsame _).2.2.2, e1, e2, e3, e4, hlam, h0, List.getD_cons_zero, if_pos ha]
    refine hu _ ?_ ?_ ?_ ?_ <;> (split <;> rfl)

theorem evaluateStep_best' (E : OptEnv) (s o : Opt) (pop : List Pt) (res : List (Option Dbl)) (c : Bool) (h : s.evaluateStep E pop res = (o, .ok c)) :
    (c = false → o.vis.bestFitness = s.vis.bestFitness) ∧
    (c = true → res ≠ [] ∧ o.vis.bestFitness = (let f := bestOf s.vis.info (res.map fun r => r.getD s.vis.info.worstFitness)
      if s.vis.info.isBetter f s.vis.bestFitness then f else s.vis.bestFitness)) := by
  unfold Opt.evaluateStep at h
  dsimp only at h
  rw [signal_vis] at h
  split at h
  · cases h
    exact ⟨fun _ => rfl, fun hc => absurd hc (by simp)⟩
  · split at h
    · rename_i f q hf hq
      have hne : res.map (fun r => r.getD s.vis.info.worstFitness) ≠ [] := by intro h0; rw [h0] at hf; simp at hf
      rw [findBest_get _ hne] at hf
      split at h
      · rename_i s' hs'
        have ht : ∀ v : Vis, (v.track E).bestFitness = v.bestFitness := by intro v; unfold Vis.track; split <;> rfl
        cases h
        refine ⟨fun hc => absurd hc (by simp), fun _ => ⟨by rintro rfl; exact hne rfl, ?_⟩⟩
        dsimp only
        rw [signal_vis]
        dsimp only
        rw [ht, Option.some.inj hf]
        split at hs'
        · rename_i hb
          rw [if_pos hb]
          split at hs'
          · cases hs'; rfl
          · cases hs'
        · rename_i hb
          rw [if_neg hb]
          cases hs'; rfl
      · cases h
    · cases h

/-- The population is evaluated: there are at most as many failures as allowed. -/
def Evaluated (F : Pt → Option Dbl) (maxErrors : Int) (pop : List Pt) : Prop := (errorCount (pop.map F) : Int) ≤ allowedErrors maxErrors (pop.map F).length

/-- What is true after any number of generations. -/
def Best (info : ObjInfo) (F : Pt → Option Dbl) (maxErrors : Int) (best : Dbl) (t : Cmaes H) (pops : List (List Pt)) : Prop :=
  (t.state ≠ 3 ∧ t.gen ≤ 1 ∧ cost info best = .fin Dbl.maxQ ∧ ∀ pop ∈ pops, ¬ Evaluated F maxErrors pop) ∨
  ((t.state = 3 ∧ 1 ≤ t.gen ∨ 2 ≤ t.gen) ∧ t.fbestever ≠ .nan ∧ cost info best = minD t.fbestever (.fin Dbl.maxQ))

theorem best_step {state gen : Nat} {fb f cb M : Dbl} (hM : M ≠ .nan) (hf : f ≠ .nan)
    (h : (state ≠ 3 ∧ gen ≤ 1 ∧ cb = M) ∨ ((state = 3 ∧ 1 ≤ gen ∨ 2 ≤ gen) ∧ fb ≠ .nan ∧ cb = minD fb M)) (g : Nat) (hg : g = if state = 3 ∨ gen = 0 then gen + 1 else gen) (fb' : Dbl)
    (hfb : fb' = if Dbl.lt f fb || decide (g = 1) then f else fb) : 1 ≤ g ∧ fb' ≠ .nan ∧ minD f cb = minD fb' M := by
  rcases h with ⟨e1, e2, rfl⟩ | ⟨e1, e2, rfl⟩
  · have : g = 1 := by
      rw [hg]
      split
      · rename_i hz; rcases hz with hz | hz
        · exact absurd hz e1
        · omega
      · rename_i hz; have : gen ≠ 0 := fun h => hz (.inr h)
        omega
    subst this
    simp only [decide_true, Bool.or_true, if_true] at hfb
    subst hfb
    exact ⟨le_refl _, hf, rfl⟩
  · have : 2 ≤ g := by
      rw [hg]
      rcases e1 with ⟨k1, k2⟩ | k1
      · rw [if_pos (.inl k1)]; omega
      · split <;> omega
    have h1 : g ≠ 1 := by omega
    simp only [h1, decide_false, Bool.or_false] at hfb
    refine ⟨by omega, ?_, ?_⟩
    · rw [hfb]; split <;> assumption
    · rw [minD_assoc hf e2 hM, hfb]; rfl

theorem generation_best {E : OptEnv} {c : CmaCfg n} {eigR} (hR : G.Sim H R) (hE : SameEig c.eig eigR) {F : Pt → Option Dbl} {s s' : CmaOpt G n} {pop : List Pt} {t t' : Cmaes H}
    (h : SameDist R c.par s.cma t) (st : CmaOpt.Internal E c F s pop s') (junk : Nat → Dbl) (hF : ∀ x ∈ pop, F x ≠ some .nan)
    (hg : t.generation c.tr c.bounds eigR junk s.opt.vis.info s.opt.vis.maxErrors F = .ok (t', pop)) {pops : List (List Pt)}
    (hb : Best s.opt.vis.info F s.opt.vis.maxErrors s.opt.vis.bestFitness t pops) : Best s.opt.vis.info F s.opt.vis.maxErrors s'.opt.vis.bestFitness t' (pops ++ [pop]) := by
  obtain ⟨t1, g1, g2⟩ := within_same hR hE h c.tr c.bounds junk
  obtain ⟨c1, c2, c3⟩ := sampleWithin_counters g1
  unfold Cmaes.generation at hg
  rw [g1, Res.ok_bind] at hg
  dsimp only at hg c1 c2 c3
  cases st with
  | @ok d d' xs o hn hp he hu =>
    rw [hp] at g2 hg
    obtain ⟨f1, f2, f3, f4⟩ := evaluateStep_facts E _ _ _ _ _ he
    obtain ⟨-, b2⟩ := evaluateStep_best' E _ _ _ _ _ he
    obtain ⟨b2, b3⟩ := b2 rfl
    rw [if_neg (by simpa using f3.symm)] at hg
    rw [f1, f4 rfl] at hu
    unfold Cma.update at hu
    have hwn : s.opt.vis.info.worstFitness ≠ .nan := by unfold ObjInfo.worstFitness; split <;> simp
    have hnn : ∀ x ∈ List.map (fun r : Option Dbl => r.getD s.opt.vis.info.worstFitness) (List.map F (toPoints xs)), x ≠ .nan := by
      intro x hx
      simp only [List.map_map, List.mem_map, Function.comp] at hx
      obtain ⟨y, hy, rfl⟩ := hx
      cases hv : F y with
      | none => exact hwn
      | some v => intro hc; exact hF y hy (by rw [hv]; exact congrArg some hc)
    have hgs : (if s.opt.vis.info.minimize = true then List.map (fun r : Option Dbl => r.getD s.opt.vis.info.worstFitness) (List.map F (toPoints xs))
      else List.map Dbl.neg (List.map (fun r : Option Dbl => r.getD s.opt.vis.info.worstFitness) (List.map F (toPoints xs)))) =
      (List.map (fun r : Option Dbl => r.getD s.opt.vis.info.worstFitness) (List.map F (toPoints xs))).map (cost s.opt.vis.info) := by
      unfold cost
      split
      · simp
      · rfl
    rw [hgs] at hu hg
    generalize hfs : List.map (fun r : Option Dbl => r.getD s.opt.vis.info.worstFitness) (List.map F (toPoints xs)) = fs at hu hg hnn b3
    have hne : fs ≠ [] := by rw [← hfs]; simpa using b2
    obtain ⟨m1, m2⟩ := bestOf_spec s.opt.vis.info hne hnn
    unfold Cma.updateDistribution at hu
    split at hu
    · cases hu
    split at hu
    · cases hu
    rename_i hlen
    rw [not_not] at hlen
    split at hu
    swap
    · cases hu
    rename_i hs
    obtain ⟨t2, k1, -⟩ := update_same' g2 hs (fs.map (cost s.opt.vis.info))
    rw [k1, Res.ok_bind] at hg
    simp only [Res.ok.injEq, Prod.mk.injEq, and_true] at hg
    subst hg
    unfold Cmaes.updateDistribution at k1
    split at k1
    · cases k1
    simp only [Res.ok.injEq] at k1
    subst k1
    obtain ⟨f0, r1, r2, r3⟩ := rank_best g2 (fs.map (cost s.opt.vis.info)) hlen (by
      intro x hx
      obtain ⟨y, hy, rfl⟩ := List.mem_map.1 hx
      exact cost_not_nan _ (hnn y hy))
    obtain ⟨y, hy, rfl⟩ := List.mem_map.1 r1
    have hfb : cost s.opt.vis.info (bestOf s.opt.vis.info fs) = cost s.opt.vis.info y :=
      dlt_antisymm (cost_not_nan _ (hnn _ m1)) (cost_not_nan _ (hnn y hy)) (r2 _ (List.mem_map.2 ⟨_, m1, rfl⟩)) (m2 y hy)
    have hrg : (t1.rank (fitAt (fs.map (cost s.opt.vis.info)))).gen = t1.gen := by
      unfold Cmaes.rank
      dsimp only
      rw [assign_eq]
      unfold Cmaes.best Cmaes.flat
      repeat' split
      all_goals rfl
    obtain ⟨a1, a2, a3⟩ := adapt_counters t1.flgdiag (t1.rank (fitAt (fs.map (cost s.opt.vis.info))))
    have hbest : cost s.opt.vis.info o.vis.bestFitness = minD (cost s.opt.vis.info y) (cost s.opt.vis.info s.opt.vis.bestFitness) := by
      rw [b3]
      dsimp only
      rw [isBetter_cost, hfb]
      unfold minD
      split
      · exact hfb
      · rfl
    obtain ⟨z1, z2, z3⟩ := best_step (by simp : Dbl.fin Dbl.maxQ ≠ .nan) (cost_not_nan s.opt.vis.info (hnn y hy)) (hb.imp (fun h => ⟨h.1, h.2.1, h.2.2.1⟩) id) _ c3 (t1.rank (fitAt (fs.map (cost s.opt.vis.info)))).fbestever (by rw [← c1]; exact r3)
    right
    exact ⟨.inl ⟨a3, by rw [a2, hrg]; exact z1⟩, by rw [a1]; exact z2, by rw [a1]; exact hbest.trans z3⟩
  | @failed d xs o hn hp he =>
    rw [hp] at g2 hg
    obtain ⟨f1, f2, f3, -⟩ := evaluateStep_facts E _ _ _ _ _ he
    obtain ⟨b2, -⟩ := evaluateStep_best' E _ _ _ _ _ he
    rw [if_pos (by simpa using f3)] at hg
    simp only [Res.ok.injEq, Prod.mk.injEq, and_true] at hg
    subst hg
    dsimp only
    unfold Best
    rw [b2 rfl, c1, c2, c3]
    rcases hb with ⟨e1, e2, e3, e4⟩ | ⟨e1, e2, e3⟩
    · left
      refine ⟨by decide, ?_, e3, ?_⟩
      · split
        · rename_i hz
          rcases hz with hz | hz
          · exact absurd hz e1
          · omega
        · exact e2
      · intro q hq
        rcases List.mem_append.1 hq with hq | hq
        · exact e4 q hq
        · rw [List.mem_singleton.1 hq]
          unfold Evaluated
          simpa using f3
    · right
      refine ⟨.inr ?_, e2, e3⟩
      rcases e1 with ⟨k1, k2⟩ | k1
      · rw [if_pos (.inl k1)]; omega
      · split <;> omega

theorem runs_best {E : OptEnv} {c : CmaCfg n} {eigR} (hR : G.Sim H R) (hE : SameEig c.eig eigR) {F : Pt → Option Dbl} {s s' : CmaOpt G n} {pops : List (List Pt)} {t : Cmaes H}
    (h : SameDist R c.par s.cma t) (st : CmaOpt.Runs E c F s pops s') (junk : Nat → Dbl) (hF : ∀ pop ∈ pops, ∀ x ∈ pop, F x ≠ some .nan)
    (hb : Best s.opt.vis.info F s.opt.vis.maxErrors s.opt.vis.bestFitness t []) :
    s'.opt.vis.info = s.opt.vis.info ∧ s'.opt.vis.maxErrors = s.opt.vis.maxErrors ∧
    ∃ t', t.generations c.tr c.bounds eigR junk s.opt.vis.info s.opt.vis.maxErrors F pops.length = .ok (t', pops) ∧ SameDist R c.par s'.cma t' ∧
      Best s.opt.vis.info F s.opt.vis.maxErrors s'.opt.vis.bestFitness t' pops := by
  induction st with
  | nil => exact ⟨rfl, rfl, t, rfl, h, hb⟩
  | @snoc ps pop s1 s2 hs st ih =>
    obtain ⟨e1, e2, t1, g1, g2, b1⟩ := ih fun q hq => hF q (by simp [hq])
    obtain ⟨e3, e4, t2, g3, g4⟩ := generation_same hR hE g2 st junk
    have b2 := generation_best hR hE g2 st junk (hF pop (by simp)) g3 (pops := ps) (by rw [e1, e2]; exact b1)
    rw [e1, e2] at b2
    refine ⟨e3.trans e1, e4.trans e2, t2, ?_, g4, b2⟩
    rw [List.length_append, List.length_singleton, Cmaes.generations, g1, Res.ok_bind, ← e1, ← e2, g3, Res.ok_bind]

/-- **C112, the best value.** As in `C112_optimizer`, for an optimizer without a best fitness yet and an objective whose values are not NaN. Once a population was evaluated, `best_fitness`
of the optimizer is `fbestever` of the reference implementation (the negative of it, for an objective that is maximized), or `worst_fitness` if that is better. -/
theorem C112_best (E : OptEnv) (info : ObjInfo) (hd : info.dim ≠ 0) {opt : Int} {modulo : Dbl} {p : CmaPar Dbl} {seed clock : Nat} (h1 : 1 ≤ seed) (h2 : seed < 2 ^ 64)
    (h3 : clock < 2 ^ 64) {s0 : CmaOpt (randSrc midAccepted_double) info.dim}
    (hm : CmaOpt.make info opt modulo (⟨Rand.init seed clock, (Rand.init_ok seed clock (.inl h1)).1⟩ : (randSrc midAccepted_double).St) = .ok (p, s0)) (hr : Regular info.dim p)
    (o : Opt) (ho : o.vis.info = info) (hbest : o.vis.bestFitness = info.worstFitness) (x sd : Nat → Dbl) (hx : ∀ k : Fin info.dim, x k = (info.pars.get k).mean)
    (hsd : ∀ k : Fin info.dim, sd k = (info.pars.get k).std)
    {eig : Eig Dbl info.dim} {eigR : (Nat → Nat → Dbl) → (Nat → Dbl) × (Nat → Nat → Dbl)} (hE : SameEig eig eigR) (tr : (Fin info.dim → Dbl) → Fin info.dim → Dbl)
    (b : Bounds Dbl info.dim) (F : Pt → Option Dbl) (memory : Nat → Int) (hold m : Dbl) (junk : Nat → Dbl) {pops : List (List Pt)} {s : CmaOpt (randSrc midAccepted_double) info.dim}
    (st : CmaOpt.Runs E { par := p, bounds := b, eig := eig, tr := tr } F ⟨o, s0.cma⟩ pops s) (hF : ∀ pop ∈ pops, ∀ x ∈ pop, F x ≠ some .nan) :
    ∃ q t, (Para.init info.dim x sd opt modulo m).supplement = .ok q ∧
      (Cmaes.init q ⟨(Rnd.init seed clock memory hold).2, _, (rnd_init_same seed clock memory hold (.inl h1) h2 h3).1⟩ : Cmaes (refSrc midAccepted_double)).generations tr b eigR junk info
        o.vis.maxErrors F pops.length = .ok (t, pops) ∧
      ((∃ pop ∈ pops, Evaluated F o.vis.maxErrors pop) → cost info s.opt.vis.bestFitness = minD t.fbestever (cost info info.worstFitness)) := by
  unfold CmaOpt.make at hm
  rw [if_neg hd] at hm
  obtain ⟨p', hp, hm⟩ := Res.bind_eq_ok.1 hm
  split at hm
  · cases hm
  simp only [Res.ok.injEq, Prod.mk.injEq] at hm
  obtain ⟨rfl, rfl⟩ := hm
  have hx' : (fun k : Fin info.dim => (info.pars.get k).mean) = fun k : Fin info.dim => x k := funext fun k => (hx k).symm
  have hs' : (fun k : Fin info.dim => (info.pars.get k).std) = fun k : Fin info.dim => sd k := funext fun k => (hsd k).symm
  obtain ⟨q, g1, g2⟩ := start_same midAccepted_double hp hr x sd m ⟨Rand.init seed clock, (Rand.init_ok seed clock (.inl h1)).1⟩
    ⟨(Rnd.init seed clock memory hold).2, _, (rnd_init_same seed clock memory hold (.inl h1) h2 h3).1⟩ (rnd_init_same seed clock memory hold (.inl h1) h2 h3).1
  rw [← hx', ← hs'] at g2
  obtain ⟨-, -, t, g3, -, g5⟩ := runs_best (rand_sim midAccepted_double) (c := { par := p', bounds := b, eig := eig, tr := tr }) hE g2 st junk hF (by
    left
    dsimp only
    rw [ho, hbest]
    refine ⟨?_, ?_, cost_worst info, fun _ h => by simp at h⟩
    · rw [g2.state]; show (0 : Nat) ≠ 3; decide
    · rw [g2.gen]; exact Nat.zero_le _)
  refine ⟨q, t, g1, ?_, fun ⟨pop, hp1, hp2⟩ => ?_⟩
  · dsimp only at g3
    rw [ho] at g3
    exact g3
  · rw [cost_worst]
    dsimp only at g5
    rw [ho] at g5
    rcases g5 with ⟨-, -, -, g5⟩ | ⟨-, -, g5⟩
    · exact absurd hp2 (g5 pop hp1)
    · exact g5

/-- The optimizer that the constructor makes meets the hypotheses of `C112_best` on `o`, and a population without failures is evaluated. -/
example (info : ObjInfo) (hd : 0 < info.dim) {opt : Int} {modulo : Dbl} {p : CmaPar Dbl} {r : G.St} {s0 : CmaOpt G info.dim} (hm : CmaOpt.make info opt modulo r = .ok (p, s0)) (g : Pt → Dbl)
    (pop : List Pt) : s0.opt.vis.info = info ∧ s0.opt.vis.bestFitness = info.worstFitness ∧ Evaluated (fun x => some (g x)) s0.opt.vis.maxErrors pop := by
  obtain ⟨e1, -⟩ := make_ok hm
  rw [e1]
  refine ⟨rfl, rfl, ?_⟩
  have h0 : errorCount (pop.map fun x => some (g x)) = 0 := by unfold errorCount; simp [List.filter_map]
  unfold Evaluated
  rw [h0]
  exact le_refl (0 : Int)
end

end Spot.Ref
