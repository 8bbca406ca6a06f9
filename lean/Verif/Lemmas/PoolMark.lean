import Verif.Lemmas.PoolBest

/-! # The best a member of a pool has found

What is changed by `step` of a member only. -/

namespace Spot

/-- After a step there are fitnesses of the current step. -/
def Vis.tested (v : Vis) : Bool := v.stepCount == 0 || !v.curFitnesses.isEmpty

/-- Objective, tolerated errors and best point of a member, and whether the conditions can be tested. -/
def Opt.mark (m : Opt) : ObjInfo × Int × Dbl × Pt × Bool := (m.vis.info, m.vis.maxErrors, m.vis.bestFitness, m.vis.bestPoint, m.vis.tested)

theorem tested_core {v w : Vis} (h : v.core = w.core) : v.tested = w.tested := by
  obtain ⟨-, h2, -, -, -, h6, -⟩ := core_ext h
  unfold Vis.tested; rw [h2, h6]

theorem mark_eq {m m' : Opt} (h : m.vis.core = m'.vis.core) : m.mark = m'.mark := by
  obtain ⟨h1, -, h3, h4, -, -, -, -, -, -, -, h12⟩ := core_ext h
  unfold Opt.mark; rw [h1, h3, h4, h12, tested_core h]

theorem testStop_mark (E : OptEnv) (m : Opt) : (m.testStop E).1.mark = m.mark := mark_eq (testStop_core E m)

theorem testAll_mark (E : OptEnv) (ms : List Opt) : (testAll E ms).1.map Opt.mark = ms.map Opt.mark := by
  induction ms with
  | nil => rfl
  | cons m ms ih =>
    have := testStop_mark E m
    simp only [testAll]
    split
    · rename_i m' r heq
      rw [heq] at this
      revert ih
      split <;> intro ih <;> simp_all
    · rename_i m' heq; rw [heq] at this; simp_all
    · rename_i m' heq; rw [heq] at this; simp_all

theorem predictLoop_mark (E : OptEnv) (cfg : PoolCfg) (info : ObjInfo) (ms : List Opt) :
    ∀ n, (predictLoop E cfg info n ms).1.map Opt.mark = ms.map Opt.mark := by
  induction ms with
  | nil => intro n; rfl
  | cons m ms ih =>
    intro n
    have := testStop_mark E m
    simp only [predictLoop]
    split
    · split
      · rename_i m' heq
        rw [heq] at this
        by_cases hs : m'.vis.stepCount ≥ cfg.start
        · have hp := mark_eq (m := { m' with vis := (m'.vis.predictedFitness E cfg.lookAhead).1 }) (m' := m')
            (predicted_core E m'.vis cfg.lookAhead)
          simp only [if_pos hs]
          split <;> simp_all
        · simp only [if_neg hs]
          simp_all
      · rename_i m' k heq; rw [heq] at this; simp_all
      · rename_i m' heq; rw [heq] at this; simp_all
      · rename_i m' heq; rw [heq] at this; simp_all
    · simp_all

theorem map_set_mark {ms : List Opt} {i : Nat} {m m' : Opt} (h : ms[i]? = some m) (hs : m'.mark = m.mark) :
    (ms.set i m').map Opt.mark = ms.map Opt.mark := by
  apply List.ext_getElem?
  intro j
  by_cases hj : i = j
  · subst hj
    have hl : i < ms.length := (List.getElem?_eq_some_iff.1 h).1
    have : ms[i] = m := (List.getElem?_eq_some_iff.1 h).2
    simp [hl, hs, this]
  · simp [List.getElem?_map, List.getElem?_set_ne hj]

theorem fillLoop_mark (E : OptEnv) (c : Nat) (preds : List Dbl) (is : List Nat) :
    ∀ (q : List Nat) (ms : List Opt), (fillLoop E c preds is q ms).1.map Opt.mark = ms.map Opt.mark := by
  induction is with
  | nil => intro q ms; rfl
  | cons i is ih =>
    intro q ms
    unfold fillLoop
    split
    · rfl
    · rename_i m hm
      have := testStop_mark E m
      split
      · rename_i heq; rw [heq] at this; exact map_set_mark hm this
      · rename_i heq; rw [heq] at this
        dsimp only
        split
        · exact map_set_mark hm this
        · rw [ih]; exact map_set_mark hm this
      · rename_i heq; rw [heq] at this; exact map_set_mark hm this
      · rename_i heq; rw [heq] at this; exact map_set_mark hm this

theorem setTargets_mark (f : Dbl) (ms : List Opt) : (setTargets f ms).1.map Opt.mark = ms.map Opt.mark := by
  induction ms with
  | nil => rfl
  | cons m ms ih =>
    simp only [setTargets]
    split
    · simp only [List.map_cons, ih]; rfl
    · rfl

theorem interrupt_mark (ms : List Opt) : (ms.map Opt.interrupt).map Opt.mark = ms.map Opt.mark := by
  simp [Opt.mark, Opt.interrupt, Vis.tested]

theorem mark_get {ms ms' : List Opt} (h : ms'.map Opt.mark = ms.map Opt.mark) {i : Nat} {m : Opt} (hm : ms[i]? = some m) :
    ∃ m', ms'[i]? = some m' ∧ m'.mark = m.mark := by
  have := congrArg (·[i]?) h
  simp only [List.getElem?_map, hm, Option.map_some] at this
  cases h' : ms'[i]? with
  | none => simp [h'] at this
  | some m' => rw [h'] at this; simp at this; exact ⟨m', rfl, this⟩

theorem testCond_mark (E : OptEnv) (p : Pool) (c : PCond) : (p.testCond E c).1.members.map Opt.mark = p.members.map Opt.mark := by
  cases c with
  | allStopped => simp [Pool.testCond, testAll_mark]
  | own c => simp only [Pool.testCond]; split <;> rfl

theorem testLoop_mark (E : OptEnv) (cs : List PCond) : ∀ (k : Nat) (p : Pool), (Pool.testLoop E k cs p).1.members.map Opt.mark = p.members.map Opt.mark := by
  induction cs with
  | nil => intro k p; simp [Pool.testLoop]
  | cons c cs ih =>
    intro k p
    have := testCond_mark E p c
    simp only [Pool.testLoop]
    split
    · rename_i heq; rw [heq] at this; exact this
    · rename_i p' heq; rw [heq] at this; exact (ih (k + 1) p').trans this
    · rename_i heq; rw [heq] at this; exact this
    · rename_i heq; rw [heq] at this; exact this

theorem poolTest_mark (E : OptEnv) (p : Pool) : (p.testStop E).1.members.map Opt.mark = p.members.map Opt.mark := by
  have := testLoop_mark E p.conds 0 p
  unfold Pool.testStop
  split
  · rfl
  · split
    · rename_i heq; rw [heq] at this; exact this
    · rename_i heq; rw [heq] at this; exact this

theorem refill_mark {E : OptEnv} {p p' : Pool} {sel : List Nat} (h : Refill E p sel p') : p'.members.map Opt.mark = p.members.map Opt.mark := by
  cases h with
  | keep h => rfl
  | @fill ms ms' preds ord q h hp ho hf hb =>
    have h1 := predictLoop_mark E p.cfg p.own.info p.members 0
    have h2 := fillLoop_mark E p.cfg.concurrent preds ord [] ms
    rw [hp] at h1; rw [hf] at h2
    exact h2.trans h1

theorem collect_mark {p p' : Pool} {i : Nat} {x : Res Unit} (h : p.collect i = (p', x)) : p'.members.map Opt.mark = p.members.map Opt.mark := by
  unfold Pool.collect at h
  split at h
  · cases h; simp
  · rename_i m hm
    dsimp only at h
    generalize hnb : (p.bestIdx.isNone || p.own.info.isBetter m.vis.bestFitness p.best) = nb at h
    cases nb <;> cases hu : p.cfg.usePredicted <;> simp [hu] at h
    all_goals first
      | (split at h <;> cases h <;> simp [Pool.signal]; done)
      | skip
    split at h
    · split at h <;> cases h <;> simp [Pool.signal, setTargets_mark]
    · cases h; simp [setTargets_mark]

theorem push_mark (p : Pool) (m : Opt) : (p.push m).members.map Opt.mark = p.members.map Opt.mark ++ [m.mark] := by
  unfold Pool.push
  dsimp only
  simp only [List.map_append, List.map_cons, List.map_nil]
  congr 2
  split
  · unfold Opt.addCond Opt.mark; dsimp only; split <;> rfl
  · rfl

end Spot
