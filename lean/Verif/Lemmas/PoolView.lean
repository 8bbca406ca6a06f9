import Verif.Lemmas.PoolBest

/-! # What a pool shows of its members

Lemmas about any function of a member that does not depend on its stop conditions, its reporters and its trend cache. -/

namespace Spot

/-- What the getters of a pool can show of a member. -/
def Opt.face (m : Opt) : ObjInfo × Dbl × Pt × Dbl × List Dbl × Pt :=
  (m.vis.info, m.vis.bestFitness, m.vis.bestPoint, m.vis.curFitness, m.vis.curFitnesses, m.vis.curPoint)

theorem face_eq {m m' : Opt} (h : m.vis.core = m'.vis.core) : m.face = m'.face := by
  obtain ⟨h1, -, h3, h4, h5, h6, h7, -⟩ := core_ext h
  unfold Opt.face; rw [h1, h3, h4, h5, h6, h7]

theorem testStop_face (E : OptEnv) (m : Opt) : (m.testStop E).1.face = m.face := face_eq (testStop_core E m)

theorem testAll_face (E : OptEnv) (ms : List Opt) : (testAll E ms).1.map Opt.face = ms.map Opt.face := by
  induction ms with
  | nil => rfl
  | cons m ms ih =>
    have := testStop_face E m
    simp only [testAll]
    split
    · rename_i m' r heq
      rw [heq] at this
      revert ih
      split <;> intro ih <;> simp_all
    · rename_i m' heq; rw [heq] at this; simp_all
    · rename_i m' heq; rw [heq] at this; simp_all

theorem predictLoop_face (E : OptEnv) (cfg : PoolCfg) (info : ObjInfo) (ms : List Opt) :
    ∀ n, (predictLoop E cfg info n ms).1.map Opt.face = ms.map Opt.face := by
  induction ms with
  | nil => intro n; rfl
  | cons m ms ih =>
    intro n
    have := testStop_face E m
    simp only [predictLoop]
    split
    · split
      · rename_i m' heq
        rw [heq] at this
        by_cases hs : m'.vis.stepCount ≥ cfg.start
        · have hp := face_eq (m := { m' with vis := (m'.vis.predictedFitness E cfg.lookAhead).1 }) (m' := m')
            (predicted_core E m'.vis cfg.lookAhead)
          simp only [if_pos hs]
          split <;> simp_all
        · simp only [if_neg hs]
          simp_all
      · rename_i m' k heq; rw [heq] at this; simp_all
      · rename_i m' heq; rw [heq] at this; simp_all
      · rename_i m' heq; rw [heq] at this; simp_all
    · simp_all

theorem map_set_face {ms : List Opt} {i : Nat} {m m' : Opt} (h : ms[i]? = some m) (hs : m'.face = m.face) :
    (ms.set i m').map Opt.face = ms.map Opt.face := by
  apply List.ext_getElem?
  intro j
  by_cases hj : i = j
  · subst hj
    have hl : i < ms.length := (List.getElem?_eq_some_iff.1 h).1
    have : ms[i] = m := (List.getElem?_eq_some_iff.1 h).2
    simp [hl, hs, this]
  · simp [List.getElem?_map, List.getElem?_set_ne hj]

theorem fillLoop_face (E : OptEnv) (c : Nat) (preds : List Dbl) (is : List Nat) :
    ∀ (q : List Nat) (ms : List Opt), (fillLoop E c preds is q ms).1.map Opt.face = ms.map Opt.face := by
  induction is with
  | nil => intro q ms; rfl
  | cons i is ih =>
    intro q ms
    unfold fillLoop
    split
    · rfl
    · rename_i m hm
      have := testStop_face E m
      split
      · rename_i heq; rw [heq] at this; exact map_set_face hm this
      · rename_i heq; rw [heq] at this
        dsimp only
        split
        · exact map_set_face hm this
        · rw [ih]; exact map_set_face hm this
      · rename_i heq; rw [heq] at this; exact map_set_face hm this
      · rename_i heq; rw [heq] at this; exact map_set_face hm this

theorem setTargets_face (f : Dbl) (ms : List Opt) : (setTargets f ms).1.map Opt.face = ms.map Opt.face := by
  induction ms with
  | nil => rfl
  | cons m ms ih =>
    simp only [setTargets]
    split
    · simp only [List.map_cons, ih]; rfl
    · rfl

theorem interrupt_face (ms : List Opt) : (ms.map Opt.interrupt).map Opt.face = ms.map Opt.face := by
  simp [Opt.face, Opt.interrupt]

theorem face_get {ms ms' : List Opt} (h : ms'.map Opt.face = ms.map Opt.face) {i : Nat} {m : Opt} (hm : ms[i]? = some m) :
    ∃ m', ms'[i]? = some m' ∧ m'.face = m.face := by
  have := congrArg (·[i]?) h
  simp only [List.getElem?_map, hm, Option.map_some] at this
  cases h' : ms'[i]? with
  | none => simp [h'] at this
  | some m' => rw [h'] at this; simp at this; exact ⟨m', rfl, this⟩

theorem testCond_face (E : OptEnv) (p : Pool) (c : PCond) : (p.testCond E c).1.members.map Opt.face = p.members.map Opt.face := by
  cases c with
  | allStopped => simp [Pool.testCond, testAll_face]
  | own c => simp only [Pool.testCond]; split <;> rfl

theorem testLoop_face (E : OptEnv) (cs : List PCond) : ∀ (k : Nat) (p : Pool), (Pool.testLoop E k cs p).1.members.map Opt.face = p.members.map Opt.face := by
  induction cs with
  | nil => intro k p; simp [Pool.testLoop]
  | cons c cs ih =>
    intro k p
    have := testCond_face E p c
    simp only [Pool.testLoop]
    split
    · rename_i heq; rw [heq] at this; exact this
    · rename_i p' heq; rw [heq] at this; exact (ih (k + 1) p').trans this
    · rename_i heq; rw [heq] at this; exact this
    · rename_i heq; rw [heq] at this; exact this

theorem poolTest_face (E : OptEnv) (p : Pool) : (p.testStop E).1.members.map Opt.face = p.members.map Opt.face := by
  have := testLoop_face E p.conds 0 p
  unfold Pool.testStop
  split
  · rfl
  · split
    · rename_i heq; rw [heq] at this; exact this
    · rename_i heq; rw [heq] at this; exact this

theorem refill_face {E : OptEnv} {p p' : Pool} {sel : List Nat} (h : Refill E p sel p') : p'.members.map Opt.face = p.members.map Opt.face := by
  cases h with
  | keep h => rfl
  | @fill ms ms' preds ord q h hp ho hf hb =>
    have h1 := predictLoop_face E p.cfg p.own.info p.members 0
    have h2 := fillLoop_face E p.cfg.concurrent preds ord [] ms
    rw [hp] at h1; rw [hf] at h2
    exact h2.trans h1

theorem collect_face {p p' : Pool} {i : Nat} {x : Res Unit} (h : p.collect i = (p', x)) : p'.members.map Opt.face = p.members.map Opt.face := by
  unfold Pool.collect at h
  split at h
  · cases h; simp
  · rename_i m hm
    dsimp only at h
    generalize hnb : (p.bestIdx.isNone || p.own.info.isBetter m.vis.bestFitness p.best) = nb at h
    cases nb <;> cases hu : p.cfg.usePredicted <;> simp [hu] at h
    all_goals first
      | (split at h <;> cases h <;> simp [Pool.signal]; done)
      | skip
    split at h
    · split at h <;> cases h <;> simp [Pool.signal, setTargets_face]
    · cases h; simp [setTargets_face]

theorem push_face (p : Pool) (m : Opt) : (p.push m).members.map Opt.face = p.members.map Opt.face ++ [m.face] := by
  unfold Pool.push
  dsimp only
  simp only [List.map_append, List.map_cons, List.map_nil]
  congr 2
  split
  · unfold Opt.addCond Opt.face; dsimp only; split <;> rfl
  · rfl

end Spot
