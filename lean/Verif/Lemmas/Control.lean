import Verif.Lemmas.Optimizer

namespace Spot

/-- The state a step has reached when it tests the stop conditions. -/
def Opt.preTest (E : OptEnv) (i : In) (s : Opt) : Opt :=
  match Opt.internal E i s.begun with
  | (t, .ok true) => t.ended
  | (t, _) => t

theorem preTest_failed {E : OptEnv} {i : In} {s : Opt} (hf : i.Failed s.vis.maxErrors) :
    s.preTest E i = (let t := { s.begun.signal (.preEvaluate i.pop) with conds := setError s.conds }
       if i.interrupt then t.interrupt else t) := by
  unfold Opt.preTest
  rw [internal_failed E s.begun i (by rw [begun_vis]; exact hf)]
  simp [begun_conds]

/-- The state after the evaluations of a completed step. -/
def Opt.evald (E : OptEnv) (i : In) (s : Opt) : Opt :=
  let fs := i.res.map (fitOf s.vis.info)
  let f := i.best s.vis.info
  let p := i.bestPt s.vis.info
  let nb := s.vis.info.isBetter f s.vis.bestFitness
  let v := s.vis.evaluated fs f p
  let a := s.signal (.preEvaluate i.pop)
  let b := { a with vis := v }
  let c := if nb then b.signal (.newBest (p.map rounded) f) else b
  let d := { c with vis := v.track E }
  let e := d.signal (.postEvaluate i.pop fs nb)
  if i.interrupt then e.interrupt else e

theorem preTest_completed {E : OptEnv} {i : In} {s : Opt} (hv : i.Valid s.vis.info) (hl : s.vis.bestPoint.length = s.vis.info.dim)
    (hf : ¬ i.Failed s.vis.maxErrors) : s.preTest E i = (s.begun.evald E i).ended := by
  unfold Opt.preTest
  rw [internal_completed E s.begun i (by rw [begun_vis]; exact hv) (by rw [begun_vis]; exact hl) (by rw [begun_vis]; exact hf)]
  rfl

theorem step_preTest {E : OptEnv} {i : In} {s : Opt} (hd : s.vis.info.dim ≠ 0) (hv : i.Valid s.vis.info)
    (hl : s.vis.bestPoint.length = s.vis.info.dim) : s.step E (Opt.internal E i) = (s.preTest E i).testStop E := by
  by_cases hf : i.Failed s.vis.maxErrors
  · rw [step_false hd (internal_failed E s.begun i (by rw [begun_vis]; exact hf)), preTest_failed hf]
    simp [begun_conds]
  · rw [step_true hd (internal_completed E s.begun i (by rw [begun_vis]; exact hv) (by rw [begun_vis]; exact hl)
      (by rw [begun_vis]; exact hf)), preTest_completed hv hl hf]
    rfl

theorem evald_stopped (E : OptEnv) (i : In) (s : Opt) : (s.evald E i).stopped = s.stopped ∧ (s.evald E i).conds = s.conds := by
  unfold Opt.evald Opt.signal Opt.interrupt; dsimp only
  split <;> split <;> exact ⟨rfl, rfl⟩

theorem preTest_stopped {E : OptEnv} {i : In} {s : Opt} (hv : i.Valid s.vis.info) (hl : s.vis.bestPoint.length = s.vis.info.dim) :
    (s.preTest E i).stopped = s.stopped ∧
    (s.preTest E i).conds = (if i.Failed s.vis.maxErrors then setError s.conds else s.conds) := by
  by_cases hf : i.Failed s.vis.maxErrors
  · rw [preTest_failed hf, if_pos hf]
    cases i.interrupt <;> simp [Opt.interrupt, Opt.signal, begun_stopped]
  · rw [preTest_completed hv hl hf, if_neg hf]
    simp [Opt.ended, Opt.signal, evald_stopped, begun_stopped, begun_conds]

theorem preTest_vis {E : OptEnv} {i : In} {s : Opt} (hv : i.Valid s.vis.info) (hl : s.vis.bestPoint.length = s.vis.info.dim) :
    (s.preTest E i).vis = s.vis.stepped E i := by
  unfold Vis.stepped
  by_cases hf : i.Failed s.vis.maxErrors
  · rw [preTest_failed hf, if_pos hf]
    dsimp only; rw [ite_interrupt_vis]; simp [signal_vis, begun_vis]
  · rw [preTest_completed hv hl hf, if_neg hf]
    have ht : ∀ v : Vis, (v.track E).stepCount = v.stepCount := fun v => by unfold Vis.track; split <;> rfl
    simp only [Opt.ended, Opt.evald, signal_vis, ite_interrupt_vis, begun_vis]
    cases i.interrupt
    · simp only [Vis.withInterrupt, Bool.false_eq_true, if_false, ht]; rfl
    · simp only [Vis.withInterrupt, if_true, ht]; rfl

/-- The stop conditions start with the abort and the error condition. -/
def CondInv (cs : List Cond) : Prop := ∃ b rest, cs = .abort :: .error b :: rest

theorem setError_inv {cs : List Cond} (h : CondInv cs) : ∃ rest, setError cs = .abort :: .error true :: rest ∧
    ∃ b, cs = .abort :: .error b :: rest := by
  obtain ⟨b, rest, rfl⟩ := h; exact ⟨rest, rfl, b, rfl⟩

theorem new_conds (info : ObjInfo) (m : Int) : (Opt.new info m).conds = [.abort, .error false] := rfl
theorem new_stopped (info : ObjInfo) (m : Int) : (Opt.new info m).stopped = none := rfl

theorem apply_stopped_of_not_test (E : OptEnv) (s : Opt) (o : Op) (h : ∀ i, o ≠ .step i) (h' : o ≠ .test) :
    (o.apply E s).stopped = s.stopped ∧ (o.apply E s).log = s.log := by
  cases o with
  | step i => exact absurd rfl (h i)
  | test => exact absurd rfl h'
  | _ => exact ⟨rfl, rfl⟩

theorem apply_condInv {E : OptEnv} {s : Opt} {o : Op} {info : ObjInfo} {m : Int} (hd : info.dim ≠ 0) (hw : s.vis.WF info m)
    (ho : o.Valid info) (h : CondInv s.conds) : CondInv (o.apply E s).conds := by
  cases o with
  | step i =>
    obtain ⟨rfl, -, hl⟩ := hw
    show CondInv (s.step E (Opt.internal E i)).1.conds
    rw [step_preTest hd ho hl, testStop_conds, (preTest_stopped ho hl).2]
    split
    · obtain ⟨rest, h, -⟩ := setError_inv h; exact ⟨true, rest, h⟩
    · exact h
  | test => show CondInv (s.testStop E).1.conds; rw [testStop_conds]; exact h
  | addCond c =>
    obtain ⟨b, rest, h⟩ := h
    exact ⟨b, rest ++ [c], by simp [Op.apply, Opt.addCond, h]⟩
  | _ => exact h

theorem history_facts (E : OptEnv) (info : ObjInfo) (m : Int) (hd : info.dim ≠ 0) (h : List Op) (hv : ∀ o ∈ h, o.Valid info) :
    ((Opt.new info m).after E h).vis.WF info m ∧ CondInv ((Opt.new info m).after E h).conds :=
  history_induction (E := E) hd (new_WF info m) (fun _ s => CondInv s.conds) ⟨false, [], rfl⟩
    (fun _ _ _ hw ho ih => apply_condInv hd hw ho ih) h hv

/-! ### testing the stop conditions -/

theorem testStop_latched {E : OptEnv} {s : Opt} {k : Nat} (h : s.stopped = some k) : s.testStop E = (s, .ok (some k)) := by
  unfold Opt.testStop; rw [h]

theorem testStop_abort {E : OptEnv} {s : Opt} (h : s.stopped = none) (hc : CondInv s.conds) (hr : s.vis.stopRequested = true) :
    (s.testStop E).2 = .ok (some 0) ∧ (s.testStop E).1.stopped = some 0 := by
  obtain ⟨b, rest, hc⟩ := hc
  unfold Opt.testStop; rw [h, hc]
  simp [testLoop, Cond.test, hr, Opt.signal]

theorem testStop_error {E : OptEnv} {s : Opt} (h : s.stopped = none) {rest : List Cond} (hc : s.conds = .abort :: .error true :: rest)
    (hr : s.vis.stopRequested = false) :
    (s.testStop E).2 = .ok (some 1) ∧ (s.testStop E).1.stopped = some 1 := by
  unfold Opt.testStop; rw [h, hc]
  simp [testLoop, Cond.test, hr, Opt.signal]

/-- What `test_stop_conditions` returned and logged. -/
theorem testStop_cases (E : OptEnv) (s : Opt) :
    (∃ k, s.stopped = some k ∧ s.testStop E = (s, .ok (some k))) ∨
    (s.stopped = none ∧ ∃ k, (s.testStop E).2 = .ok (some k) ∧ (s.testStop E).1.stopped = some k ∧
      ∃ v, v.core = s.vis.core ∧ (s.testStop E).1.log = s.log ++ [(.stop k, v)]) ∨
    (s.stopped = none ∧ (∀ k, (s.testStop E).2 ≠ .ok (some k)) ∧ (s.testStop E).1.stopped = none ∧ (s.testStop E).1.log = s.log) := by
  cases hs : s.stopped with
  | some k => exact Or.inl ⟨k, rfl, testStop_latched hs⟩
  | none =>
    right
    unfold Opt.testStop; rw [hs]; dsimp only
    have hcore := testLoop_core E s.conds 0 s.vis
    split
    · rename_i v k h
      rw [h] at hcore
      exact Or.inl ⟨rfl, k, rfl, rfl, v, hcore, rfl⟩
    · rename_i v r h1 h2
      right
      exact ⟨rfl, fun k hk => h1 k hk, rfl, rfl⟩

end Spot
