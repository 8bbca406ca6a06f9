import Verif.Lemmas.Optimizer
import Verif.Model.Pool

/-! # Facts about pools -/

namespace Spot

/-- What matters of a member for the best fitness of the pool. -/
def Opt.sig (m : Opt) : Dbl × Pt × ObjInfo := (m.vis.bestFitness, m.vis.bestPoint, m.vis.info)

theorem sig_eq {m m' : Opt} (h : m.vis.core = m'.vis.core) : m.sig = m'.sig := by
  have := core_ext h; unfold Opt.sig; rw [this.1, this.2.2.1, this.2.2.2.1]

theorem testStop_sig (E : OptEnv) (m : Opt) : (m.testStop E).1.sig = m.sig := sig_eq (testStop_core E m)

theorem testAll_sig (E : OptEnv) (ms : List Opt) : (testAll E ms).1.map Opt.sig = ms.map Opt.sig := by
  induction ms with
  | nil => rfl
  | cons m ms ih =>
    have := testStop_sig E m
    simp only [testAll]
    split
    · rename_i m' r heq
      rw [heq] at this
      revert ih
      split <;> intro ih <;> simp_all
    · rename_i m' heq; rw [heq] at this; simp_all
    · rename_i m' heq; rw [heq] at this; simp_all

theorem predictLoop_sig (E : OptEnv) (cfg : PoolCfg) (info : ObjInfo) (ms : List Opt) :
    ∀ n, (predictLoop E cfg info n ms).1.map Opt.sig = ms.map Opt.sig := by
  induction ms with
  | nil => intro n; rfl
  | cons m ms ih =>
    intro n
    have := testStop_sig E m
    simp only [predictLoop]
    split
    · split
      · rename_i m' heq
        rw [heq] at this
        by_cases hs : m'.vis.stepCount ≥ cfg.start
        · have hp := sig_eq (m := { m' with vis := (m'.vis.predictedFitness E cfg.lookAhead).1 }) (m' := m')
            (predicted_core E m'.vis cfg.lookAhead)
          simp only [if_pos hs]
          split <;> simp_all
        · simp only [if_neg hs]
          simp_all
      · rename_i m' k heq; rw [heq] at this; simp_all
      · rename_i m' heq; rw [heq] at this; simp_all
      · rename_i m' heq; rw [heq] at this; simp_all
    · simp_all

theorem map_set_sig {ms : List Opt} {i : Nat} {m m' : Opt} (h : ms[i]? = some m) (hs : m'.sig = m.sig) :
    (ms.set i m').map Opt.sig = ms.map Opt.sig := by
  apply List.ext_getElem?
  intro j
  by_cases hj : i = j
  · subst hj
    have hl : i < ms.length := (List.getElem?_eq_some_iff.1 h).1
    have : ms[i] = m := (List.getElem?_eq_some_iff.1 h).2
    simp [hl, hs, this]
  · simp [List.getElem?_map, List.getElem?_set_ne hj]

theorem fillLoop_sig (E : OptEnv) (c : Nat) (preds : List Dbl) (is : List Nat) :
    ∀ (q : List Nat) (ms : List Opt), (fillLoop E c preds is q ms).1.map Opt.sig = ms.map Opt.sig := by
  induction is with
  | nil => intro q ms; rfl
  | cons i is ih =>
    intro q ms
    unfold fillLoop
    split
    · rfl
    · rename_i m hm
      have := testStop_sig E m
      split
      · rename_i heq; rw [heq] at this; exact map_set_sig hm this
      · rename_i heq; rw [heq] at this
        dsimp only
        split
        · exact map_set_sig hm this
        · rw [ih]; exact map_set_sig hm this
      · rename_i heq; rw [heq] at this; exact map_set_sig hm this
      · rename_i heq; rw [heq] at this; exact map_set_sig hm this

theorem setTargets_sig (f : Dbl) (ms : List Opt) : (setTargets f ms).1.map Opt.sig = ms.map Opt.sig := by
  induction ms with
  | nil => rfl
  | cons m ms ih =>
    simp only [setTargets]
    split
    · simp only [List.map_cons, ih]; rfl
    · rfl

theorem interrupt_sig (ms : List Opt) : (ms.map Opt.interrupt).map Opt.sig = ms.map Opt.sig := by
  simp [Opt.sig, Opt.interrupt]

/-- A step that does not end in undefined behaviour leaves the best fitness or improves it. -/
theorem evaluateStep_best (E : OptEnv) (s : Opt) (pop : List Pt) (res : List (Option Dbl)) :
    (s.evaluateStep E pop res).1.vis.info = s.vis.info ∧
    ((s.evaluateStep E pop res).1.vis.bestFitness = s.vis.bestFitness ∨
      s.vis.info.isBetter (s.evaluateStep E pop res).1.vis.bestFitness s.vis.bestFitness = true) := by
  unfold Opt.evaluateStep
  dsimp only
  split
  · exact ⟨rfl, .inl rfl⟩
  · split
    · rename_i f p hf hp
      have hti : ∀ v : Vis, (v.track E).info = v.info := by intro v; unfold Vis.track; split <;> rfl
      split
      · rename_i s' heq
        have : s'.vis.info = s.vis.info ∧ (s'.vis.bestFitness = s.vis.bestFitness ∨
            s.vis.info.isBetter s'.vis.bestFitness s.vis.bestFitness = true) := by
          split at heq
          · rename_i hb
            split at heq
            · cases heq; exact ⟨rfl, .inr hb⟩
            · cases heq
          · cases heq; exact ⟨rfl, .inl rfl⟩
        dsimp only [Opt.signal]
        rw [hti, (track_best E _).1]; exact this
      · exact ⟨rfl, .inl rfl⟩
    · exact ⟨rfl, .inl rfl⟩

theorem step_best (E : OptEnv) (s : Opt) (i : In) :
    (s.step E (Opt.internal E i)).1.vis.info = s.vis.info ∧
    ((s.step E (Opt.internal E i)).1.vis.bestFitness = s.vis.bestFitness ∨
      s.vis.info.isBetter (s.step E (Opt.internal E i)).1.vis.bestFitness s.vis.bestFitness = true) := by
  by_cases hd : s.vis.info.dim = 0
  · unfold Opt.step; rw [if_pos hd]; exact ⟨rfl, .inl rfl⟩
  · have hb := evaluateStep_best E s.begun i.pop i.res
    rw [begun_vis] at hb
    have hi : (Opt.internal E i s.begun).1.vis.info = s.vis.info ∧ ((Opt.internal E i s.begun).1.vis.bestFitness = s.vis.bestFitness ∨
        s.vis.info.isBetter (Opt.internal E i s.begun).1.vis.bestFitness s.vis.bestFitness = true) := by
      unfold Opt.internal
      dsimp only
      split <;> exact hb
    rcases hr : Opt.internal E i s.begun with ⟨t, r⟩
    rw [hr] at hi
    have key : ∀ u : Opt, u.vis.info = t.vis.info → u.vis.bestFitness = t.vis.bestFitness →
        u.vis.info = s.vis.info ∧ (u.vis.bestFitness = s.vis.bestFitness ∨ s.vis.info.isBetter u.vis.bestFitness s.vis.bestFitness = true) := by
      intro u h1 h2; rw [h1, h2]; exact hi
    have hstep : s.step E (Opt.internal E i) = match Opt.internal E i s.begun with
      | (s, .ok true) => s.ended.testStop E
      | (s, .ok false) => s.testStop E
      | (s, .err) => (s, .err)
      | (s, .ub) => (s, .ub) := by
      unfold Opt.step; rw [if_neg hd]; rfl
    rw [hstep, hr]
    cases r with
    | ok b =>
      cases b with
      | true => have := core_ext (testStop_core E t.ended); exact key _ this.1 this.2.2.1
      | false => have := core_ext (testStop_core E t); exact key _ this.1 this.2.2.1
    | err => exact hi
    | ub => exact hi

/-- A step keeps the best point or improves the best fitness. -/
theorem evaluateStep_bestPoint (E : OptEnv) (s : Opt) (pop : List Pt) (res : List (Option Dbl)) :
    ((s.evaluateStep E pop res).1.vis.bestFitness = s.vis.bestFitness ∧ (s.evaluateStep E pop res).1.vis.bestPoint = s.vis.bestPoint) ∨
      s.vis.info.isBetter (s.evaluateStep E pop res).1.vis.bestFitness s.vis.bestFitness = true := by
  unfold Opt.evaluateStep
  dsimp only
  split
  · exact .inl ⟨rfl, rfl⟩
  · split
    · rename_i f p hf hp
      split
      · rename_i s' heq
        have : (s'.vis.bestFitness = s.vis.bestFitness ∧ s'.vis.bestPoint = s.vis.bestPoint) ∨
            s.vis.info.isBetter s'.vis.bestFitness s.vis.bestFitness = true := by
          split at heq
          · rename_i hb
            split at heq
            · cases heq; exact .inr hb
            · cases heq
          · cases heq; exact .inl ⟨rfl, rfl⟩
        dsimp only [Opt.signal]
        rw [(track_best E _).1, (track_best E _).2.1]; exact this
      · exact .inl ⟨rfl, rfl⟩
    · exact .inl ⟨rfl, rfl⟩

theorem step_bestPoint (E : OptEnv) (s : Opt) (i : In) :
    ((s.step E (Opt.internal E i)).1.vis.bestFitness = s.vis.bestFitness ∧ (s.step E (Opt.internal E i)).1.vis.bestPoint = s.vis.bestPoint) ∨
      s.vis.info.isBetter (s.step E (Opt.internal E i)).1.vis.bestFitness s.vis.bestFitness = true := by
  by_cases hd : s.vis.info.dim = 0
  · unfold Opt.step; rw [if_pos hd]; exact .inl ⟨rfl, rfl⟩
  · have hb := evaluateStep_bestPoint E s.begun i.pop i.res
    rw [begun_vis] at hb
    have hi : ((Opt.internal E i s.begun).1.vis.bestFitness = s.vis.bestFitness ∧ (Opt.internal E i s.begun).1.vis.bestPoint = s.vis.bestPoint) ∨
        s.vis.info.isBetter (Opt.internal E i s.begun).1.vis.bestFitness s.vis.bestFitness = true := by
      unfold Opt.internal
      dsimp only
      split <;> exact hb
    rcases hr : Opt.internal E i s.begun with ⟨t, r⟩
    rw [hr] at hi
    have key : ∀ u : Opt, u.vis.bestFitness = t.vis.bestFitness → u.vis.bestPoint = t.vis.bestPoint →
        (u.vis.bestFitness = s.vis.bestFitness ∧ u.vis.bestPoint = s.vis.bestPoint) ∨ s.vis.info.isBetter u.vis.bestFitness s.vis.bestFitness = true := by
      intro u h1 h2; rw [h1, h2]; exact hi
    have hstep : s.step E (Opt.internal E i) = match Opt.internal E i s.begun with
      | (s, .ok true) => s.ended.testStop E
      | (s, .ok false) => s.testStop E
      | (s, .err) => (s, .err)
      | (s, .ub) => (s, .ub) := by
      unfold Opt.step; rw [if_neg hd]; rfl
    rw [hstep, hr]
    cases r with
    | ok b =>
      cases b with
      | true => have := core_ext (testStop_core E t.ended); exact key _ this.2.2.1 this.2.2.2.1
      | false => have := core_ext (testStop_core E t); exact key _ this.2.2.1 this.2.2.2.1
    | err => exact hi
    | ub => exact hi

end Spot
