import Verif.Lemmas.Cma
import Verif.Props.Invariance
import Verif.Props.EsTotal
import Verif.Props.CmaSample

/-! # CMA uses only the order of the fitnesses (C47, C48) and its steps complete (C75) -/

namespace Spot

theorem sortInsert_congr {f g : Nat → Dbl} (h : ∀ i j, Dbl.lt (g i) (g j) = Dbl.lt (f i) (f j)) (i : Nat) : ∀ (j : Nat) (idx : List Nat),
    sortInsert g i j idx = sortInsert f i j idx
  | 0, _ => rfl
  | j + 1, idx => by simp only [sortInsert, h, sortInsert_congr h i j]

theorem sortOuter_congr {f g : Nat → Dbl} (h : ∀ i j, Dbl.lt (g i) (g j) = Dbl.lt (f i) (f j)) : ∀ (k i : Nat) (idx : List Nat),
    sortOuter g k i idx = sortOuter f k i idx
  | 0, _, _ => rfl
  | k + 1, i, idx => by simp only [sortOuter, sortInsert_congr h, sortOuter_congr h k]

theorem deq_iff (a b : Dbl) : Dbl.eq a b = (!Dbl.lt a b && !Dbl.lt b a && decide (a ≠ .nan) && decide (b ≠ .nan)) := by
  cases a <;> cases b <;> simp [Dbl.eq, Dbl.lt]
  rename_i x y
  rcases lt_trichotomy x y with h | h | h
  · simp [h.not_ge, h.ne]
  · simp [h]
  · simp [h.not_ge, h.ne']; exact fun _ => h

/-- An update sees nothing of the fitnesses but their order. -/
theorem update_congr {K : Type} [Arith K] {n : Nat} {G : GaussSrc K} {i1 i2 : ObjInfo} {Rel : Dbl → Dbl → Prop} (h : FitRel i1 i2 Rel) (p : CmaPar K)
    (s : Cma G n) {fs1 fs2 : List Dbl} (hl : List.Forall₂ Rel fs1 fs2) : s.update p i2.minimize fs2 = s.update p i1.minimize fs1 := by
  have hfit : ∀ (i : ObjInfo) (fs : List Dbl) (a : Nat), fitAt (if i.minimize then fs else fs.map Dbl.neg) a = if i.minimize then fitAt fs a else (fitAt fs a).neg := by
    intro i fs a
    split
    · rfl
    · unfold fitAt
      rw [List.getD_eq_getElem?_getD, List.getD_eq_getElem?_getD, List.getElem?_map]
      cases fs[a]? <;> rfl
  have hlt : ∀ (i : ObjInfo) (fs : List Dbl) (a b : Nat), Dbl.lt (fitAt (if i.minimize then fs else fs.map Dbl.neg) a) (fitAt (if i.minimize then fs else fs.map Dbl.neg) b) =
      i.isBetter (fitAt fs a) (fitAt fs b) := by
    intro i fs a b
    rw [hfit, hfit]
    unfold ObjInfo.isBetter
    cases i.minimize <;> simp [neg_lt_neg']
  have hnan : ∀ (i : ObjInfo) (fs : List Dbl) (a : Nat), fitAt (if i.minimize then fs else fs.map Dbl.neg) a = .nan ↔ fitAt fs a = .nan := by
    intro i fs a
    rw [hfit]
    split
    · rfl
    · cases fitAt fs a <;> simp [Dbl.neg]
  have hrel : ∀ a, (fitAt fs1 a = .nan ∧ fitAt fs2 a = .nan) ∨ Rel (fitAt fs1 a) (fitAt fs2 a) := by
    intro a
    unfold fitAt
    rw [List.getD_eq_getElem?_getD, List.getD_eq_getElem?_getD]
    rcases forall₂_getElem? hl a with ⟨e1, e2⟩ | ⟨x, y, e1, e2, e3⟩
    · rw [e1, e2]; exact .inl ⟨rfl, rfl⟩
    · rw [e1, e2]; exact .inr e3
  have hnn : ∀ a, fitAt fs2 a = .nan ↔ fitAt fs1 a = .nan := by
    intro a
    rcases hrel a with ⟨e1, e2⟩ | hr
    · exact iff_of_true e2 e1
    · exact h.nan hr
  have hbn : ∀ (i : ObjInfo) (x y : Dbl), x = .nan ∨ y = .nan → i.isBetter x y = false := by
    intro i x y hxy
    unfold ObjInfo.isBetter
    rcases hxy with rfl | rfl
    · split
      · simp [Dbl.lt]
      · cases y <;> simp [Dbl.lt]
    · split
      · cases x <;> simp [Dbl.lt]
      · simp [Dbl.lt]
  have hb : ∀ a b, i2.isBetter (fitAt fs2 a) (fitAt fs2 b) = i1.isBetter (fitAt fs1 a) (fitAt fs1 b) := by
    intro a b
    rcases hrel a with ⟨e1, e2⟩ | hr
    · rw [hbn _ _ _ (.inl e1), hbn _ _ _ (.inl e2)]
    · rcases hrel b with ⟨e1, e2⟩ | hr2
      · rw [hbn _ _ _ (.inr e1), hbn _ _ _ (.inr e2)]
      · exact h.better hr hr2
  have hlt' : ∀ a b, Dbl.lt (fitAt (if i2.minimize then fs2 else fs2.map Dbl.neg) a) (fitAt (if i2.minimize then fs2 else fs2.map Dbl.neg) b) =
      Dbl.lt (fitAt (if i1.minimize then fs1 else fs1.map Dbl.neg) a) (fitAt (if i1.minimize then fs1 else fs1.map Dbl.neg) b) := by
    intro a b; rw [hlt, hlt, hb]
  have heq : ∀ a b, Dbl.eq (fitAt (if i2.minimize then fs2 else fs2.map Dbl.neg) a) (fitAt (if i2.minimize then fs2 else fs2.map Dbl.neg) b) =
      Dbl.eq (fitAt (if i1.minimize then fs1 else fs1.map Dbl.neg) a) (fitAt (if i1.minimize then fs1 else fs1.map Dbl.neg) b) := by
    intro a b
    rw [deq_iff, deq_iff, hlt', hlt']
    congr 1
    · congr 1
      rw [decide_eq_decide, not_iff_not, hnan, hnan, hnn]
    · rw [decide_eq_decide, not_iff_not, hnan, hnan, hnn]
  have hrank : s.rank p (if i2.minimize then fs2 else fs2.map Dbl.neg) = s.rank p (if i1.minimize then fs1 else fs1.map Dbl.neg) := by
    have e : ∀ k, sortedIndex (if i2.minimize then fs2 else fs2.map Dbl.neg) s.index k = sortedIndex (if i1.minimize then fs1 else fs1.map Dbl.neg) s.index k := by
      intro k
      exact sortOuter_congr hlt' _ _ _
    unfold Cma.rank
    simp only [e, heq]
  have hlen : (if i2.minimize then fs2 else fs2.map Dbl.neg).length = (if i1.minimize then fs1 else fs1.map Dbl.neg).length := by
    have := hl.length_eq
    split <;> split <;> simp [this]
  unfold Cma.update Cma.updateDistribution
  rw [hrank, hlen]

section
variable [Libm] {n : Nat} {G : GaussSrc Dbl}

/-- Whole runs: the second optimizer can do what the first one does. -/
theorem cma_runs_congr (E : OptEnv) (c : CmaCfg n) {i1 i2 : ObjInfo} {Rel : Dbl → Dbl → Prop} (h : FitRel i1 i2 Rel) {F1 F2 : Pt → Option Dbl}
    (hF : ∀ p, (F1 p = none ∧ F2 p = none) ∨ ∃ a b, F1 p = some a ∧ F2 p = some b ∧ Rel a b) {s1 s2 : CmaOpt G n}
    (hs : OptRel i1 i2 Rel s1.opt s2.opt) (hd : s2.cma = s1.cma) {ps : List (List Pt)} {t1 : CmaOpt G n} (hr : CmaOpt.Runs E c F1 s1 ps t1) :
    ∃ t2, CmaOpt.Runs E c F2 s2 ps t2 ∧ OptRel i1 i2 Rel t1.opt t2.opt ∧ t2.cma = t1.cma := by
  induction hr with
  | nil => exact ⟨s2, .nil, hs, hd⟩
  | @snoc ps pop t t' hr st ih =>
    obtain ⟨t2, h1, h2, h3⟩ := ih
    cases st with
    | @ok d d' xs o hdim hp hev hu =>
      have hk := evaluateStep_congr E h h2 (toPoints xs) F1 F2 hF
      rw [hev] at hk
      have hrel := hk.2 (by simp)
      refine ⟨⟨_, d'⟩, h1.snoc (.ok hdim (by rw [h3]; exact hp) (Prod.ext rfl hk.1) ?_), hrel, rfl⟩
      rw [hrel.info2]
      rw [hrel.info1] at hu
      rw [update_congr h c.par d hrel.fits]
      exact hu
    | @failed d xs o hdim hp hev =>
      have hk := evaluateStep_congr E h h2 (toPoints xs) F1 F2 hF
      rw [hev] at hk
      exact ⟨⟨_, d⟩, h1.snoc (.failed hdim (by rw [h3]; exact hp) (Prod.ext rfl hk.1)), hk.2 (by simp), rfl⟩

theorem make_ok {info : ObjInfo} {opt : Int} {modulo : Dbl} {rng : G.St} {p : CmaPar Dbl} {s : CmaOpt G info.dim}
    (h : CmaOpt.make info opt modulo rng = .ok (p, s)) : s.opt = (Opt.init info).addCond (.flat (lit (1 / 10 ^ 9))) ∧
      s.cma = Cma.init p (fun k => (info.pars.get k).mean) (fun k => (info.pars.get k).std) rng ∧ (0 < info.dim → CmaPar.make Dbl info.dim opt modulo = .ok p) := by
  unfold CmaOpt.make at h
  rw [Res.bind_eq_ok] at h
  obtain ⟨q, h1, h2⟩ := h
  split at h2
  · cases h2
  · cases h2; exact ⟨rfl, rfl, fun hd => by rwa [if_neg (by omega)] at h1⟩

/-- **C47.** Let `g` be strictly increasing on the values of the objective `F`. Whatever run a CMA optimizer does with `F`, it can do with `g ∘ F`:
the same populations, distribution and random numbers after every number of steps, and the same best point; and conversely. This holds for any boundary
transformer, eigenvalue decomposition and source of random numbers. -/
theorem C47_cma (E : OptEnv) (info : ObjInfo) (c : CmaCfg info.dim) (V : Set Dbl) (g : Dbl → Dbl) (hg : Monotone info V g)
    (F : Pt → Option Dbl) (hF : ∀ p a, F p = some a → a ∈ V) (opt : Int) (modulo : Dbl) (rng : G.St) (s : CmaOpt G info.dim)
    (hs : CmaOpt.make info opt modulo rng = .ok (c.par, s)) (ps : List (List Pt)) :
    (∀ t, CmaOpt.Runs E c F s ps t → ∃ t', CmaOpt.Runs E c (fun p => (F p).map g) s ps t' ∧
      t'.cma = t.cma ∧ t'.opt.vis.bestPoint = t.opt.vis.bestPoint ∧ t'.opt.vis.curPoint = t.opt.vis.curPoint ∧
      (t'.opt.vis.bestFitness = g t.opt.vis.bestFitness ∨ t.opt.vis.bestFitness = info.worstFitness ∧ t'.opt.vis.bestFitness = info.worstFitness)) ∧
    (∀ t', CmaOpt.Runs E c (fun p => (F p).map g) s ps t' → ∃ t, CmaOpt.Runs E c F s ps t ∧
      t'.cma = t.cma ∧ t'.opt.vis.bestPoint = t.opt.vis.bestPoint ∧ t'.opt.vis.curPoint = t.opt.vis.curPoint ∧
      (t'.opt.vis.bestFitness = g t.opt.vis.bestFitness ∨ t.opt.vis.bestFitness = info.worstFitness ∧ t'.opt.vis.bestFitness = info.worstFitness)) := by
  have hr := monotone_fitRel hg
  have hF' : ∀ p, (F p = none ∧ (F p).map g = none) ∨ ∃ a b, F p = some a ∧ (F p).map g = some b ∧
      ((a ∈ V ∧ b = g a) ∨ (a = info.worstFitness ∧ b = info.worstFitness)) := by
    intro p
    cases hp : F p with
    | none => exact .inl ⟨rfl, rfl⟩
    | some a => exact .inr ⟨a, g a, rfl, rfl, .inl ⟨hF p a hp, rfl⟩⟩
  have hm : OptRel info info (fun a b => (a ∈ V ∧ b = g a) ∨ (a = info.worstFitness ∧ b = info.worstFitness)) s.opt s.opt := by
    rw [(make_ok hs).1]
    exact ⟨rfl, rfl, rfl, hr.worst, rfl, hr.worst, rfl, .nil⟩
  constructor
  · intro t ht
    obtain ⟨t', h1, h2, h3⟩ := cma_runs_congr E c hr hF' hm rfl ht
    refine ⟨t', h1, h3, h2.bestPt, h2.curPt, ?_⟩
    rcases h2.best with h | h
    · exact .inl h.2
    · exact .inr h
  · intro t' ht'
    obtain ⟨t, h1, h2, h3⟩ := cma_runs_congr E c hr.flip (F1 := fun p => (F p).map g) (F2 := F)
      (fun p => by rcases hF' p with h | ⟨a, b, h1, h2, h3⟩; exact .inl h.symm; exact .inr ⟨b, a, h2, h1, h3⟩) hm.flip rfl ht'
    refine ⟨t, h1, h3.symm, h2.bestPt.symm, h2.curPt.symm, ?_⟩
    rcases h2.best with h | h
    · exact .inl h.2
    · exact .inr h

/-- **C48.** Whatever a CMA optimizer does with an objective `F` that is minimized (maximized), it can do with `-F` maximized (minimized): the same
populations, distributions and best points, and the negated best fitness; and conversely. -/
theorem C48_cma (E : OptEnv) (info : ObjInfo) (c : CmaCfg info.dim) (F : Pt → Option Dbl) (opt : Int) (modulo : Dbl) (rng : G.St)
    (s s' : CmaOpt G info.dim) (hs : CmaOpt.make info opt modulo rng = .ok (c.par, s))
    (hs' : (CmaOpt.make info.opposite opt modulo rng : Res (_ × CmaOpt G info.dim)) = .ok (c.par, s')) (ps : List (List Pt)) :
    (∀ t, CmaOpt.Runs E c F s ps t → ∃ t', CmaOpt.Runs E c (fun p => (F p).map Dbl.neg) s' ps t' ∧
      t'.cma = t.cma ∧ t'.opt.vis.bestPoint = t.opt.vis.bestPoint ∧ t'.opt.vis.bestFitness = t.opt.vis.bestFitness.neg ∧
      t'.opt.vis.curFitnesses = t.opt.vis.curFitnesses.map Dbl.neg) ∧
    (∀ t', CmaOpt.Runs E c (fun p => (F p).map Dbl.neg) s' ps t' → ∃ t, CmaOpt.Runs E c F s ps t ∧
      t'.cma = t.cma ∧ t'.opt.vis.bestPoint = t.opt.vis.bestPoint ∧ t'.opt.vis.bestFitness = t.opt.vis.bestFitness.neg ∧
      t'.opt.vis.curFitnesses = t.opt.vis.curFitnesses.map Dbl.neg) := by
  have hr := neg_fitRel info
  have hF' : ∀ p, (F p = none ∧ (F p).map Dbl.neg = none) ∨ ∃ a b, F p = some a ∧ (F p).map Dbl.neg = some b ∧ b = Dbl.neg a := by
    intro p
    cases hp : F p with
    | none => exact .inl ⟨rfl, rfl⟩
    | some a => exact .inr ⟨a, _, rfl, rfl, rfl⟩
  obtain ⟨m1, m2, -⟩ := make_ok hs
  obtain ⟨m3, m4, -⟩ := make_ok (info := info.opposite) hs'
  have hm : OptRel info info.opposite (fun a b => b = Dbl.neg a) s.opt s'.opt := by
    rw [m1, m3]
    exact ⟨rfl, rfl, rfl, hr.worst, rfl, hr.worst, rfl, .nil⟩
  have hcma : s'.cma = s.cma := by rw [m2, m4]; rfl
  have hmap : ∀ {l1 l2 : List Dbl}, List.Forall₂ (fun a b => b = Dbl.neg a) l1 l2 → l2 = l1.map Dbl.neg := by
    intro l1 l2 h
    induction h with
    | nil => rfl
    | cons h _ ih => rw [h, ih]; rfl
  constructor
  · intro t ht
    obtain ⟨t', h1, h2, h3⟩ := cma_runs_congr E c hr hF' hm hcma ht
    exact ⟨t', h1, h3, h2.bestPt, h2.best, hmap h2.fits⟩
  · intro t' ht'
    obtain ⟨t, h1, h2, h3⟩ := cma_runs_congr E c hr.flip (F1 := fun p => (F p).map Dbl.neg) (F2 := F) (s2 := s)
      (fun p => by rcases hF' p with h | ⟨a, b, h1, h2, h3⟩; exact .inl h.symm; exact .inr ⟨b, a, h2, h1, h3⟩) hm.flip hcma.symm ht'
    exact ⟨t, h1, h3.symm, h2.bestPt.symm, h2.best, hmap h2.fits.flip⟩

end

end Spot
