import Verif.Props.Reporters

/-!
# C30 - C32, C24: fitness tracking and stop conditions
-/

namespace Spot

/-! ## C30 -/

/-- The last `n` elements. -/
def lastN {α : Type} (n : Nat) (l : List α) : List α := l.drop (l.length - n)

theorem lastN_length {α : Type} (n : Nat) (l : List α) : (lastN n l).length = min n l.length := by
  simp [lastN]; omega

theorem lastN_snoc {α : Type} {n : Nat} (hn : 0 < n) (l : List α) (x : α) :
    lastN n (l ++ [x]) = (if (lastN n l).length = n then (lastN n l).drop 1 else lastN n l) ++ [x] := by
  rw [lastN_length]
  unfold lastN
  by_cases h : n ≤ l.length
  · rw [if_pos (by omega), List.drop_drop]
    simp only [List.length_append, List.length_singleton]
    rw [List.drop_append_of_le_length (by omega)]
    congr 2; omega
  · rw [if_neg (by omega)]
    have e1 : (l ++ [x]).length - n = 0 := by simp; omega
    have e2 : l.length - n = 0 := by omega
    rw [e1, e2]; simp

theorem lastN_of_le {α : Type} {n : Nat} {l : List α} (h : l.length ≤ n) : lastN n l = l := by
  unfold lastN; rw [show l.length - n = 0 by omega]; rfl

theorem completed_append (m : Int) (h : List Op) (o : Op) :
    completed m (h ++ [o]) = completed m h ++ completed m [o] := by simp [completed]

theorem completed_step (m : Int) (i : In) : completed m [.step i] = if i.Failed m then [] else [i] := by
  by_cases h : i.Failed m <;> simp [completed, h]

/-- A call that keeps the tracking window at `w`: the window is not set, conditions do not need a larger one. -/
def Op.keepsWindow (w : Nat) : Op → Prop
  | .window _ => False
  | .addCond c => c.minWindow ≤ w
  | _ => True

/-- **C30.** Let `w > 0` be the tracking window of an optimizer that has not been stepped, and `h'` any calls that keep it. Then
the history holds the best fitnesses (as `float`) of the last `min(n, w)` of the `n` completed steps in order, and `n` samples
have been counted. -/
theorem C30_history (E : OptEnv) (info : ObjInfo) (m : Int) (hd : info.dim ≠ 0) (h h' : List Op) (hv : ∀ o ∈ h ++ h', o.Valid info)
    (w : Nat) (hw0 : 0 < w) (hcap : ((Opt.new info m).after E h).vis.capacity = w) (hfresh : ∀ i, Op.step i ∉ h)
    (hk : ∀ o ∈ h', o.keepsWindow w) :
    let v := ((Opt.new info m).after E (h ++ h')).vis
    v.history = lastN w ((completed m h').map fun i => E.toFloat (i.best info)) ∧ v.samples = (completed m h').length ∧
    v.stepCount = v.samples ∧ v.capacity = w := by
  -- nothing is tracked before the first step
  have hpre : ((Opt.new info m).after E h).vis.WF info m ∧ ((∀ i, Op.step i ∉ h) → ((Opt.new info m).after E h).vis.history = [] ∧
      ((Opt.new info m).after E h).vis.samples = 0 ∧ ((Opt.new info m).after E h).vis.stepCount = 0) := by
    refine history_induction (E := E) hd (new_WF info m) (fun h s => (∀ i, Op.step i ∉ h) → s.vis.history = [] ∧ s.vis.samples = 0 ∧
      s.vis.stepCount = 0) (fun _ => ?_) ?_ h (fun o ho => hv o (by simp [ho]))
    · simp [Opt.new, Opt.init, Opt.addCond, Cond.minWindow]
    · intro h s o hw ho ih hns
      obtain ⟨i1, i2, i3⟩ := ih (fun i hi => hns i (by simp [hi]))
      obtain ⟨-, c2, -, -, -, -, -, c8, c9, -⟩ := core_ext (apply_core E s o hd hw ho)
      rw [c2, c8, c9]
      cases o with
      | step i => exact absurd (by simp) (hns i)
      | addCond c => simp only [Op.onVis]; split
                     · simp [Vis.setWindow, i1, i2, i3]
                     · exact ⟨i1, i2, i3⟩
      | window n => simp [Op.onVis, Vis.setWindow, i1, i2, i3]
      | _ => exact ⟨i1, i2, i3⟩
  obtain ⟨hw, hp⟩ := hpre
  obtain ⟨p1, p2, p3⟩ := hp hfresh
  have := (history_induction (E := E) hd hw (fun h' s => (∀ o ∈ h', o.keepsWindow w) →
    s.vis.history = lastN w ((completed m h').map fun i => E.toFloat (i.best info)) ∧ s.vis.samples = (completed m h').length ∧
    s.vis.stepCount = s.vis.samples ∧ s.vis.capacity = w) (fun _ => ⟨by simp [p1, completed, lastN], by simp [p2, completed], by rw [p2, p3], hcap⟩)
    ?_ h' (fun o ho => hv o (by simp [ho]))).2 hk
  · rw [← after_append] at this; exact this
  · intro h s o hw ho ih hk
    obtain ⟨i1, i2, i3, i4⟩ := ih (fun o ho => hk o (by simp [ho]))
    have hko := hk o (by simp)
    obtain ⟨-, c2, -, -, -, -, -, c8, c9, c10, -⟩ := core_ext (apply_core E s o hd hw ho)
    rw [c2, c8, c9, c10, completed_append]
    cases o with
    | step i =>
      show (s.vis.stepped E i).history = _ ∧ (s.vis.stepped E i).samples = _ ∧ (s.vis.stepped E i).stepCount = (s.vis.stepped E i).samples ∧
        (s.vis.stepped E i).capacity = w
      rw [completed_step]
      by_cases hf : i.Failed m
      · rw [if_pos hf, stepped_failed E (by rw [hw.maxErr]; exact hf)]
        simp only [List.append_nil]
        cases i.interrupt <;> exact ⟨i1, i2, i3, i4⟩
      · rw [if_neg hf]
        obtain ⟨-, -, -, -, -, e6, e7, -, e9, e10⟩ := stepped_completed E (v := s.vis) (i := i) (by rw [hw.maxErr]; exact hf)
        rw [e6, e7, e9, e10, i4, if_pos hw0, if_pos hw0, hw.info_eq]
        refine ⟨?_, by simp [i2], by rw [i3], rfl⟩
        rw [i1, List.map_append, List.map_singleton, lastN_snoc hw0]
    | addCond c =>
      have hc : c.minWindow ≤ w := hko
      simp only [Op.onVis]
      rw [if_neg (by rw [i4]; omega)]
      simpa [completed] using ⟨i1, i2, i3, i4⟩
    | window n => exact absurd hko id
    | _ => simpa [completed] using ⟨i1, i2, i3, i4⟩

/-- Never more than the window is kept. -/
theorem C30_bounded (E : OptEnv) (info : ObjInfo) (m : Int) (hd : info.dim ≠ 0) (h : List Op) (hv : ∀ o ∈ h, o.Valid info) :
    let v := ((Opt.new info m).after E h).vis
    v.history.length ≤ v.capacity ∧ v.history.length ≤ v.samples := by
  refine (history_induction (E := E) hd (new_WF info m) (fun _ s => s.vis.history.length ≤ s.vis.capacity ∧ s.vis.history.length ≤ s.vis.samples) ?_ ?_ h hv).2
  · simp [Opt.new, Opt.init, Opt.addCond, Cond.minWindow]
  · intro h s o hw ho ih
    obtain ⟨-, -, -, -, -, -, -, c8, c9, c10, -⟩ := core_ext (apply_core E s o hd hw ho)
    rw [c8, c9, c10]
    have hset : ∀ n, (s.vis.setWindow n).history.length ≤ (s.vis.setWindow n).capacity ∧ (s.vis.setWindow n).history.length ≤ (s.vis.setWindow n).samples := by
      intro n; simp only [Vis.setWindow, List.length_drop]; omega
    cases o with
    | step i =>
      show (s.vis.stepped E i).history.length ≤ (s.vis.stepped E i).capacity ∧ (s.vis.stepped E i).history.length ≤ (s.vis.stepped E i).samples
      by_cases hf : i.Failed m
      · rw [stepped_failed E (by rw [hw.maxErr]; exact hf)]
        cases i.interrupt <;> exact ih
      · obtain ⟨-, -, -, -, -, -, e7, -, e9, e10⟩ := stepped_completed E (v := s.vis) (i := i) (by rw [hw.maxErr]; exact hf)
        rw [e7, e9, e10]
        by_cases hc : s.vis.capacity > 0
        · simp only [hc, if_true, List.length_append, List.length_singleton]
          split
          · simp only [List.length_drop]; omega
          · omega
        · simp only [hc, if_false]; exact ih
    | addCond c => simp only [Op.onVis]; split
                   · exact hset _
                   · exact ih
    | window n => exact hset n
    | _ => exact ih

/-- **C30.** After `add_stop_condition` the tracking window is at least what this condition needs, never smaller than before, and
it remains so unless the window is set explicitly. -/
theorem C30_window_guarantee (E : OptEnv) (s : Opt) (c : Cond) :
    c.minWindow ≤ (s.addCond c).vis.capacity ∧ s.vis.capacity ≤ (s.addCond c).vis.capacity ∧
    ((s.addCond c).vis.capacity = s.vis.capacity ∨ (s.addCond c).vis.capacity = c.minWindow) := by
  unfold Opt.addCond
  by_cases h : c.minWindow > s.vis.capacity
  · have e : (if c.minWindow > s.vis.capacity then s.vis.setWindow c.minWindow else s.vis) = s.vis.setWindow c.minWindow := if_pos h
    dsimp only; rw [e]
    exact ⟨le_rfl, h.le, Or.inr rfl⟩
  · have e : (if c.minWindow > s.vis.capacity then s.vis.setWindow c.minWindow else s.vis) = s.vis := if_neg h
    dsimp only; rw [e]
    exact ⟨by omega, le_rfl, Or.inl rfl⟩

theorem C30_all_served (E : OptEnv) (info : ObjInfo) (m : Int) (hd : info.dim ≠ 0) (h : List Op) (hv : ∀ o ∈ h, o.Valid info)
    (hk : ∀ n, Op.window n ∉ h) :
    let s := (Opt.new info m).after E h
    ∀ c ∈ s.conds, c.minWindow ≤ s.vis.capacity := by
  refine (history_induction (E := E) hd (new_WF info m) (fun h s => (∀ n, Op.window n ∉ h) → ∀ c ∈ s.conds, c.minWindow ≤ s.vis.capacity)
    ?_ ?_ h hv).2 hk
  · intro _ c hc
    rw [new_conds] at hc
    simp only [List.mem_cons, List.not_mem_nil, or_false] at hc
    rcases hc with rfl | rfl <;> simp [Cond.minWindow]
  · intro h s o hw ho ih hk
    have ih := ih (fun n hn => hk n (by simp [hn]))
    cases o with
    | step i =>
      have hcap : ((Op.step i).apply E s).vis.capacity = s.vis.capacity := by
        rw [(core_ext (apply_core E s (.step i) hd hw ho)).2.2.2.2.2.2.2.2.2.1]
        show (s.vis.stepped E i).capacity = _
        by_cases hf : i.Failed s.vis.maxErrors
        · rw [stepped_failed E hf]; cases i.interrupt <;> rfl
        · exact (stepped_completed E hf).2.2.2.2.2.2.1
      obtain ⟨rfl, -, hl⟩ := hw
      have hcs : ((Op.step i).apply E s).conds = if i.Failed s.vis.maxErrors then setError s.conds else s.conds := by
        show (s.step E (Opt.internal E i)).1.conds = _
        rw [step_preTest hd ho hl, testStop_conds, (preTest_stopped ho hl).2]
      intro c hc
      rw [hcap]
      rw [hcs] at hc
      split at hc
      · have : ∀ (cs : List Cond), c ∈ setError cs → c ∈ cs ∨ c = .error true := by
          intro cs
          induction cs with
          | nil => intro h; exact Or.inl h
          | cons d cs ihc =>
            intro h
            cases d <;> simp only [setError, List.mem_cons] at h ⊢ <;> rcases h with h | h <;> tauto
        rcases this _ hc with hc | rfl
        · exact ih c hc
        · simp [Cond.minWindow]
      · exact ih c hc
    | addCond c =>
      intro c' hc'
      obtain ⟨g1, g2, -⟩ := C30_window_guarantee E s c
      show c'.minWindow ≤ (s.addCond c).vis.capacity
      have : c' ∈ s.conds ∨ c' = c := by simpa [Op.apply, Opt.addCond] using hc'
      rcases this with hc' | rfl
      · exact (ih c' hc').trans g2
      · exact g1
    | window n => exact absurd (by simp) (hk n)
    | test =>
      have hcap := (core_ext (testStop_core E s)).2.2.2.2.2.2.2.2.2.1
      intro c hc
      show c.minWindow ≤ (s.testStop E).1.vis.capacity
      rw [hcap]
      exact ih c (by rw [← testStop_conds E s]; exact hc)
    | trend =>
      intro c hc
      show c.minWindow ≤ (s.vis.fitnessTrend E).1.capacity
      rw [(core_ext (fitnessTrend_core E s.vis)).2.2.2.2.2.2.2.2.2.1]; exact ih c hc
    | progress =>
      intro c hc
      show c.minWindow ≤ (s.vis.progress E).1.capacity
      rw [(core_ext (progress_core E s.vis)).2.2.2.2.2.2.2.2.2.1]; exact ih c hc
    | predicted k =>
      intro c hc
      show c.minWindow ≤ (s.vis.predictedFitness E k).1.capacity
      rw [(core_ext (predicted_core E s.vis k)).2.2.2.2.2.2.2.2.2.1]; exact ih c hc
    | _ => exact ih

/-- A window of two and three completed steps (and a failed one). -/
example : ((Opt.new optInfo 0).after optEnv ([.window 2] ++
    [.step { pop := [[.fin 1]], res := [some (.fin 5)] }, .step { pop := [[.fin 1]], res := [some (.fin 4)] },
     .step { pop := [[.fin 1]], res := [none] }, .step { pop := [[.fin 1], [.fin 2]], res := [some (.fin 9), some (.fin 8)] }])).vis.history =
    [.fin 4, .fin 8] := by decide +kernel

/-! ## C31 -/

/-- The regression of the current history: abscissae are the sample numbers. -/
def Vis.trueTrend (E : OptEnv) (v : Vis) : Lin :=
  if v.history.length ≥ 2 then E.regress ((v.samples : Int) - v.history.length) v.history else ⟨.fin 0, .fin 0⟩

/-- Every explicit setting of the window in the history left room for the samples present. -/
def NoShrink (E : OptEnv) : Opt → List Op → Prop
  | _, [] => True
  | s, o :: h => (∀ n, o = .window n → s.vis.history.length ≤ n) ∧ NoShrink E (o.apply E s) h

theorem noShrink_append (E : OptEnv) (h : List Op) (o : Op) : ∀ s : Opt, NoShrink E s (h ++ [o]) →
    NoShrink E s h ∧ ∀ n, o = .window n → (s.after E h).vis.history.length ≤ n := by
  induction h with
  | nil => intro s hs; exact ⟨trivial, hs.1⟩
  | cons a h ih => intro s hs; obtain ⟨h1, h2⟩ := ih _ hs.2; exact ⟨⟨hs.1, h1⟩, h2⟩

/-- The cache is up to date. -/
def Vis.Fresh (E : OptEnv) (v : Vis) : Prop :=
  (∀ k, v.trendStep = some k → k ≤ v.samples) ∧ (v.trendStep = some v.samples → v.trend = v.trueTrend E)

theorem fitnessTrend_fresh {E : OptEnv} {v : Vis} (h : v.Fresh E) : (v.fitnessTrend E).2 = v.trueTrend E ∧ (v.fitnessTrend E).1.Fresh E := by
  unfold Vis.fitnessTrend
  by_cases hs : v.trendStep = some v.samples
  · rw [if_neg (by simpa using hs)]; exact ⟨h.2 hs, h⟩
  · rw [if_pos hs]
    exact ⟨rfl, by intro k hk; simp at hk; simp [← hk], by intro _; rfl⟩

theorem progress_fresh {E : OptEnv} {v : Vis} (h : v.Fresh E) : (v.progress E).1.Fresh E := by
  unfold Vis.progress; split
  · exact h
  · split
    · exact (fitnessTrend_fresh h).2
    · exact h

theorem predicted_fresh {E : OptEnv} {v : Vis} (k : Nat) (h : v.Fresh E) : (v.predictedFitness E k).1.Fresh E := by
  unfold Vis.predictedFitness; split
  · exact h
  · split
    · exact (fitnessTrend_fresh h).2
    · exact h

theorem test_fresh {E : OptEnv} {v : Vis} (c : Cond) (h : v.Fresh E) : (c.test E v).1.Fresh E := by
  cases c with
  | custom w a t =>
    cases a
    · exact h
    · exact (fitnessTrend_fresh h).2
  | flat e => simp only [Cond.test]; repeat' split
              all_goals exact h
  | minProgress p m =>
    simp only [Cond.test]; have := progress_fresh h
    repeat' split
    all_goals simp_all
  | predicted f a m =>
    simp only [Cond.test]; have := predicted_fresh a h
    repeat' split
    all_goals simp_all
  | _ => exact h

theorem testLoop_fresh {E : OptEnv} (cs : List Cond) : ∀ (k : Nat) (v : Vis), v.Fresh E → (testLoop E k cs v).1.Fresh E := by
  induction cs with
  | nil => intro k v h; exact h
  | cons c cs ih =>
    intro k v h; simp only [testLoop]; have := test_fresh c h
    split <;> rename_i heq <;> rw [heq] at this
    · exact this
    · exact ih _ _ this
    · exact this
    · exact this

theorem testStop_fresh {E : OptEnv} {s : Opt} (h : s.vis.Fresh E) : (s.testStop E).1.vis.Fresh E := by
  unfold Opt.testStop; have := testLoop_fresh s.conds 0 s.vis h
  repeat' split
  all_goals simp_all [Opt.signal]

theorem stepped_fresh {E : OptEnv} {v : Vis} {i : In} (h : v.Fresh E) : (v.stepped E i).Fresh E := by
  by_cases hf : i.Failed v.maxErrors
  · rw [stepped_failed E hf]; cases i.interrupt <;> exact h
  · obtain ⟨-, -, -, -, -, -, -, -, e9, e10⟩ := stepped_completed E (v := v) (i := i) hf
    have ht : (v.stepped E i).trendStep = v.trendStep ∧ (v.stepped E i).trend = v.trend := by
      have ht : ∀ w : Vis, (w.track E).trendStep = w.trendStep ∧ (w.track E).trend = w.trend := fun w => by
        unfold Vis.track; split <;> exact ⟨rfl, rfl⟩
      unfold Vis.stepped; rw [if_neg hf]
      have := ht (v.evaluated (i.res.map (fitOf v.info)) (i.best v.info) (i.bestPt v.info))
      cases i.interrupt <;> exact this
    unfold Vis.Fresh Vis.trueTrend
    rw [ht.1, ht.2, e9, e10]
    by_cases hc : v.capacity > 0
    · simp only [hc, if_true]
      refine ⟨fun k hk => (h.1 k hk).trans (by omega), fun hk => ?_⟩
      have := h.1 _ hk; omega
    · simp only [hc, if_false]; exact h

theorem setWindow_fresh {E : OptEnv} {v : Vis} {n : Nat} (hn : v.history.length ≤ n) (h : v.Fresh E) : (v.setWindow n).Fresh E := by
  have : (v.setWindow n).history = v.history := by
    simp only [Vis.setWindow]; rw [show v.history.length - n = 0 by omega]; rfl
  unfold Vis.Fresh Vis.trueTrend; rw [this]; exact h

theorem fresh_history (E : OptEnv) (info : ObjInfo) (m : Int) (hd : info.dim ≠ 0) (h : List Op) (hv : ∀ o ∈ h, o.Valid info)
    (hs : NoShrink E (Opt.new info m) h) : ((Opt.new info m).after E h).vis.Fresh E := by
  induction h using List.reverseRecOn with
  | nil =>
    refine ⟨?_, ?_⟩ <;> simp [Opt.after, Opt.new, Opt.init, Opt.addCond, Cond.minWindow]
  | append_singleton h o ih =>
    have hv' : ∀ o ∈ h, o.Valid info := fun o ho => hv o (by simp [ho])
    obtain ⟨hs1, hs2⟩ := noShrink_append E h o _ hs
    have ih := ih hv' hs1
    obtain ⟨hw, -⟩ := history_facts E info m hd h hv'
    have hb := (C30_bounded E info m hd h hv').1
    have ho := hv o (by simp)
    rw [after_append]
    cases o with
    | step i =>
      show ((((Opt.new info m).after E h).step E (Opt.internal E i)).1).vis.Fresh E
      obtain ⟨h1, -, hl⟩ := hw
      have hi' : i.Valid ((Opt.new info m).after E h).vis.info := by rw [h1]; exact ho
      rw [step_preTest (by rw [h1]; exact hd) hi' (by rw [h1]; exact hl)]
      refine testStop_fresh ?_
      rw [preTest_vis hi' (by rw [h1]; exact hl)]
      exact stepped_fresh ih
    | test => exact testStop_fresh ih
    | trend => exact (fitnessTrend_fresh ih).2
    | progress => exact progress_fresh ih
    | predicted k => exact predicted_fresh k ih
    | window n => exact setWindow_fresh (hs2 n rfl) ih
    | addCond c =>
      show (if c.minWindow > _ then _ else _ : Vis).Fresh E
      split
      · exact setWindow_fresh (by omega) ih
      · exact ih
    | interrupt => exact ih
    | addRep r => exact ih

/-- **C31.** Whenever and however often it is called, `fitness_trend()` returns the regression of the current history (and changes
nothing but its cache), provided the tracking window was never set smaller than the number of samples present. -/
theorem C31_trend_not_stale (E : OptEnv) (info : ObjInfo) (m : Int) (hd : info.dim ≠ 0) (h : List Op) (hv : ∀ o ∈ h, o.Valid info)
    (hs : NoShrink E (Opt.new info m) h) :
    let v := ((Opt.new info m).after E h).vis
    (v.fitnessTrend E).2 = v.trueTrend E ∧ (v.fitnessTrend E).1.core = v.core :=
  ⟨(fitnessTrend_fresh (fresh_history E info m hd h hv hs)).1, fitnessTrend_core E _⟩

/-- `progress()` and `predicted_fitness( k )` in terms of that regression. -/
def Vis.trueProgress (E : OptEnv) (v : Vis) : Dbl :=
  if v.history.length < 2 then .fin 0
  else
    let r := E.relSlope (v.trueTrend E) v.samples v.history.length
    if v.info.minimize then r.neg else r

def Vis.truePrediction (E : OptEnv) (v : Vis) (ahead : Nat) : Dbl :=
  if v.history.length < 2 then .fin 0 else E.evalLin (v.trueTrend E) (v.stepCount + ahead)

theorem progress_eq {E : OptEnv} {v : Vis} (h : v.Fresh E) :
    (v.progress E).2 = if v.capacity = 0 then .err else .ok (v.trueProgress E) := by
  unfold Vis.progress Vis.trueProgress
  by_cases hc : v.capacity = 0
  · simp [hc]
  · by_cases hl : v.history.length ≥ 2
    · simp only [hc, if_false, hl, if_true, (fitnessTrend_fresh h).1, if_neg (show ¬ v.history.length < 2 by omega)]
    · simp [hc, hl, show v.history.length < 2 by omega]

theorem predicted_eq {E : OptEnv} {v : Vis} (h : v.Fresh E) (k : Nat) :
    (v.predictedFitness E k).2 = if v.capacity = 0 then .err else .ok (v.truePrediction E k) := by
  unfold Vis.predictedFitness Vis.truePrediction
  by_cases hc : v.capacity = 0
  · simp [hc]
  · by_cases hl : v.history.length ≥ 2
    · simp only [hc, if_false, hl, if_true, (fitnessTrend_fresh h).1, if_neg (show ¬ v.history.length < 2 by omega)]
    · simp [hc, hl, show v.history.length < 2 by omega]

/-- **C31.** Likewise `progress()` and `predicted_fitness( k )`; both throw exactly when tracking is disabled. -/
theorem C31_progress (E : OptEnv) (info : ObjInfo) (m : Int) (hd : info.dim ≠ 0) (h : List Op) (hv : ∀ o ∈ h, o.Valid info)
    (hs : NoShrink E (Opt.new info m) h) (k : Nat) :
    let v := ((Opt.new info m).after E h).vis
    (v.progress E).2 = (if v.capacity = 0 then .err else .ok (v.trueProgress E)) ∧
    (v.predictedFitness E k).2 = (if v.capacity = 0 then .err else .ok (v.truePrediction E k)) := by
  have := fresh_history E info m hd h hv hs
  exact ⟨progress_eq this, predicted_eq this k⟩

/-- An environment whose "regression" is the number of samples. -/
def lenEnv : OptEnv := { optEnv with regress := fun _ l => ⟨.fin l.length, .fin 0⟩ }

/-- Three steps, queries in between, window grown: fresh. -/
example : let h : List Op := [.window 2, .step { pop := [[.fin 1]], res := [some (.fin 5)] }, .trend,
    .step { pop := [[.fin 1]], res := [some (.fin 4)] }, .trend, .progress, .window 3, .step { pop := [[.fin 1]], res := [some (.fin 4)] }]
    NoShrink lenEnv (Opt.new optInfo 0) h ∧ ((((Opt.new optInfo 0).after lenEnv h).vis.fitnessTrend lenEnv).2).slope = .fin 3 := by
  refine ⟨?_, by decide +kernel⟩
  simp only [NoShrink, reduceCtorEq, Op.window.injEq, forall_eq', and_true, false_implies, implies_true, true_and]
  decide +kernel

/-- **C31 (finding).** Setting a smaller window after a query leaves the trend of the larger window in place until the next
sample arrives. -/
theorem C31_shrink_stale : ∃ (E : OptEnv) (h : List Op), (∀ o ∈ h, o.Valid optInfo) ∧
    (((Opt.new optInfo 0).after E h).vis.fitnessTrend E).2 ≠ ((Opt.new optInfo 0).after E h).vis.trueTrend E := by
  refine ⟨lenEnv, [.window 3, .step { pop := [[.fin 1]], res := [some (.fin 5)] }, .step { pop := [[.fin 1]], res := [some (.fin 4)] },
    .step { pop := [[.fin 1]], res := [some (.fin 4)] }, .trend, .window 2], ?_, by decide +kernel⟩
  intro o ho
  simp only [List.mem_cons, List.not_mem_nil, or_false] at ho
  rcases ho with rfl | rfl | rfl | rfl | rfl | rfl <;> first | trivial | exact ⟨by decide, by decide, by decide⟩

/-! ## C32 -/

/-- The documented meaning of the stop conditions. -/
def Cond.Holds (E : OptEnv) (v : Vis) : Cond → Prop
  | .abort => v.stopRequested = true
  | .error set => set = true
  | .flat eps => 0 < v.stepCount ∧ ∃ hi ∈ v.curFitnesses, ∃ lo ∈ v.curFitnesses,
      (∀ f ∈ v.curFitnesses, Dbl.le lo f = true ∧ Dbl.le f hi = true) ∧ Dbl.lt (Dbl.sub hi lo) eps = true
  | .target t => v.info.isBetter v.bestFitness t = true
  | .maxSteps n => n ≤ v.stepCount
  | .minProgress p m => m ≤ v.stepCount ∧ Dbl.lt (v.trueProgress E) p = true
  | .predicted f ahead m => m ≤ v.stepCount ∧ v.info.isBetter (v.truePrediction E ahead) f = false
  | .custom _ true t => t { v with trend := v.trueTrend E, trendStep := some v.samples } = true
  | .custom _ false t => t v.core = true

/-- The condition needs tracking, but it is disabled. -/
def Cond.Throws (v : Vis) : Cond → Prop
  | .minProgress _ m => m ≤ v.stepCount ∧ v.capacity = 0
  | .predicted _ _ m => m ≤ v.stepCount ∧ v.capacity = 0
  | _ => False

theorem minElem_best (cmp : Dbl → Dbl → Bool) (has : ∀ a b, cmp a b = true → cmp b a = false)
    (htr : ∀ a b c, a ≠ .nan → b ≠ .nan → c ≠ .nan → cmp a b = false → cmp b c = false → cmp a c = false) (f : List Dbl) (hne : f ≠ [])
    (hn : ∀ x ∈ f, x ≠ .nan) : ∃ y ∈ f, f[ObjInfo.minElem cmp f]? = some y ∧ ∀ x ∈ f, cmp x y = false := by
  cases f with
  | nil => exact absurd rfl hne
  | cons x f =>
    obtain ⟨y, h1, h2, -⟩ := minElemLoop_spec cmp has htr f [x] 0 x hn rfl (by
      intro k z hz
      cases k with
      | zero =>
        simp only [List.getElem?_cons_zero, Option.some.injEq] at hz; subst hz
        cases hc : cmp x x with
        | false => rfl
        | true => have := has x x hc; rw [hc] at this; exact this
      | succ k => simp at hz) (by intro k z hk; omega)
    refine ⟨y, List.mem_of_getElem? h1, h1, fun z hz => ?_⟩
    obtain ⟨k, hk⟩ := List.getElem?_of_mem hz
    exact h2 k z hk

theorem maxOf_spec {f : List Dbl} (hne : f ≠ []) (hn : ∀ x ∈ f, x ≠ .nan) : ∃ y ∈ f, maxOf f = some y ∧ ∀ x ∈ f, Dbl.le x y = true := by
  obtain ⟨y, h1, h2, h3⟩ := minElem_best (fun x b => Dbl.lt b x) (fun a b h => Dbl.lt_asymm h)
    (fun a b c ha hb hc h h' => lt_negtrans hc hb ha h' h) f hne hn
  exact ⟨y, h1, h2, fun x hx => (Dbl.not_lt (hn y h1) (hn x hx)).1 (h3 x hx)⟩

theorem minOf_spec {f : List Dbl} (hne : f ≠ []) (hn : ∀ x ∈ f, x ≠ .nan) : ∃ y ∈ f, minOf f = some y ∧ ∀ x ∈ f, Dbl.le y x = true := by
  obtain ⟨y, h1, h2, h3⟩ := minElem_best (fun x b => Dbl.lt x b) (fun a b h => Dbl.lt_asymm h)
    (fun a b c ha hb hc h h' => lt_negtrans ha hb hc h h') f hne hn
  exact ⟨y, h1, h2, fun x hx => (Dbl.not_lt (hn x hx) (hn y h1)).1 (h3 x hx)⟩

/-- The state is one the stop conditions can be asked in. -/
structure Vis.Askable (E : OptEnv) (v : Vis) : Prop where
  fresh : v.Fresh E
  pop : 0 < v.stepCount → v.curFitnesses ≠ []
  num : ∀ f ∈ v.curFitnesses, f ≠ .nan

theorem test_holds {E : OptEnv} {v : Vis} (h : v.Askable E) (c : Cond) :
    (c.Throws v ∧ (c.test E v).2 = .err) ∨ (¬ c.Throws v ∧ ∃ b, (c.test E v).2 = .ok b ∧ (b = true ↔ c.Holds E v)) := by
  cases c with
  | abort => exact Or.inr ⟨id, _, rfl, Iff.rfl⟩
  | error b => exact Or.inr ⟨id, _, rfl, Iff.rfl⟩
  | target t => exact Or.inr ⟨id, _, rfl, Iff.rfl⟩
  | maxSteps n => exact Or.inr ⟨id, _, rfl, decide_eq_true_iff⟩
  | flat eps =>
    right
    refine ⟨id, ?_⟩
    simp only [Cond.test, Cond.Holds]
    by_cases hs : v.stepCount > 0
    · obtain ⟨hi, m1, e1, g1⟩ := maxOf_spec (h.pop hs) h.num
      obtain ⟨lo, m2, e2, g2⟩ := minOf_spec (h.pop hs) h.num
      rw [if_pos hs, e1, e2]
      refine ⟨_, rfl, ?_, ?_⟩
      · intro hlt; exact ⟨hs, hi, m1, lo, m2, fun f hf => ⟨g2 f hf, g1 f hf⟩, hlt⟩
      · rintro ⟨-, hi', m1', lo', m2', g', hlt⟩
        have e1 : hi' = hi := Dbl.le_antisymm (g1 _ m1') (g' _ m1).2
        have e2 : lo' = lo := Dbl.le_antisymm (g' _ m2).1 (g2 _ m2')
        rw [e1, e2] at hlt; exact hlt
    · exact ⟨false, by rw [if_neg hs], by simp; omega⟩
  | minProgress p m =>
    have := progress_eq h.fresh
    simp only [Cond.test, Cond.Throws, Cond.Holds]
    by_cases hs : v.stepCount ≥ m
    · rw [if_pos hs]
      by_cases hc : v.capacity = 0
      · rw [if_pos hc] at this
        left; refine ⟨⟨hs, hc⟩, ?_⟩
        split <;> rename_i heq <;> rw [heq] at this <;> simp at this ⊢
      · rw [if_neg hc] at this
        right; refine ⟨by tauto, ?_⟩
        split <;> rename_i heq <;> rw [heq] at this <;> simp only [Res.ok.injEq, reduceCtorEq] at this
        exact ⟨_, rfl, by rw [this]; simp [hs]⟩
    · right; exact ⟨by tauto, false, by rw [if_neg hs], by simp; omega⟩
  | predicted f a m =>
    have := predicted_eq h.fresh a
    simp only [Cond.test, Cond.Throws, Cond.Holds]
    by_cases hs : v.stepCount ≥ m
    · rw [if_pos hs]
      by_cases hc : v.capacity = 0
      · rw [if_pos hc] at this
        left; refine ⟨⟨hs, hc⟩, ?_⟩
        split <;> rename_i heq <;> rw [heq] at this <;> simp at this ⊢
      · rw [if_neg hc] at this
        right; refine ⟨by tauto, ?_⟩
        split <;> rename_i heq <;> rw [heq] at this <;> simp only [Res.ok.injEq, reduceCtorEq] at this
        exact ⟨_, rfl, by rw [this]; simp [hs]⟩
    · right; exact ⟨by tauto, false, by rw [if_neg hs], by simp; omega⟩
  | custom w a t =>
    right
    refine ⟨id, ?_⟩
    cases a
    · exact ⟨_, rfl, Iff.rfl⟩
    · have : (v.fitnessTrend E).1 = { v with trend := v.trueTrend E, trendStep := some v.samples } := by
        unfold Vis.fitnessTrend
        by_cases hs : v.trendStep = some v.samples
        · rw [if_neg (by simpa using hs)]
          have := h.fresh.2 hs
          rw [← this, ← hs]
        · rw [if_pos hs]; rfl
      refine ⟨_, rfl, ?_⟩
      rw [this]; rfl

theorem holds_core {E : OptEnv} {v w : Vis} (h : v.core = w.core) (c : Cond) : (c.Holds E v ↔ c.Holds E w) ∧ (c.Throws v ↔ c.Throws w) := by
  have hv : v.trueTrend E = w.trueTrend E := by
    obtain ⟨-, -, -, -, -, -, -, h8, h9, -⟩ := core_ext h
    unfold Vis.trueTrend; rw [h8, h9]
  have hf : { v with trend := v.trueTrend E, trendStep := some v.samples } = { w with trend := w.trueTrend E, trendStep := some w.samples } := by
    rw [hv]
    have := core_ext h
    simp only [Vis.mk.injEq, and_true, true_and]; tauto
  obtain ⟨h1, h2, h3, h4, h5, h6, h7, h8, h9, h10, h11, h12⟩ := core_ext h
  have hp : v.trueProgress E = w.trueProgress E := by unfold Vis.trueProgress; rw [h9, hv, h8, h1]
  have hpr : ∀ k, v.truePrediction E k = w.truePrediction E k := by intro k; unfold Vis.truePrediction; rw [h9, hv, h2]
  cases c with
  | custom n a t =>
    cases a
    · simp only [Cond.Holds, Cond.Throws, h]; exact ⟨trivial, trivial⟩
    · simp only [Cond.Holds, Cond.Throws, hf]; exact ⟨trivial, trivial⟩
  | _ => simp only [Cond.Holds, Cond.Throws, h1, h2, h3, h6, h10, h11, hp, hpr]; exact ⟨trivial, trivial⟩

theorem askable_history (E : OptEnv) (info : ObjInfo) (m : Int) (hd : info.dim ≠ 0) (h : List Op) (hv : ∀ o ∈ h, o.Valid info)
    (hs : NoShrink E (Opt.new info m) h) (hn : NoNaN h) : ((Opt.new info m).after E h).vis.Askable E := by
  have := (history_induction (E := E) hd (new_WF info m) (fun h s => NoNaN h → (0 < s.vis.stepCount → s.vis.curFitnesses ≠ []) ∧
    ∀ f ∈ s.vis.curFitnesses, f ≠ .nan) ?_ ?_ h hv).2 hn
  · exact ⟨fresh_history E info m hd h hv hs, this.1, this.2⟩
  · intro _; simp [Opt.new, Opt.init, Opt.addCond, Cond.minWindow]
  · intro h s o hw ho ih hn
    have ih := ih hn.left
    obtain ⟨-, c2, -, -, -, c6, -⟩ := core_ext (apply_core E s o hd hw ho)
    rw [c2, c6]
    cases o with
    | step i =>
      show (0 < (s.vis.stepped E i).stepCount → (s.vis.stepped E i).curFitnesses ≠ []) ∧ ∀ f ∈ (s.vis.stepped E i).curFitnesses, f ≠ .nan
      by_cases hf : i.Failed s.vis.maxErrors
      · rw [stepped_failed E hf]; cases i.interrupt <;> exact ih
      · obtain ⟨-, -, -, -, e5, -⟩ := stepped_completed E (v := s.vis) (i := i) hf
        rw [e5]
        have hi : i.Valid info := ho
        refine ⟨fun _ hnil => ?_, fun f hf' => ?_⟩
        · have h0 : i.res.length = 0 := by rw [← List.length_map (f := fitOf s.vis.info), hnil]; rfl
          rw [hi.results] at h0
          exact hi.nonempty (List.eq_nil_of_length_eq_zero h0)
        · obtain ⟨r, hr, rfl⟩ := List.mem_map.1 hf'
          cases r with
          | none => exact worst_ne_nan _
          | some f => exact hn i (by simp) f hr
    | addCond c => simp only [Op.onVis]; split <;> exact ih
    | _ => exact ih

/-- **C32.** In every reachable state every stop condition answers exactly as documented (see `Cond.Holds`); the two conditions
based on tracking throw when it is disabled. -/
theorem C32_conditions (E : OptEnv) (info : ObjInfo) (m : Int) (hd : info.dim ≠ 0) (h : List Op) (hv : ∀ o ∈ h, o.Valid info)
    (hs : NoShrink E (Opt.new info m) h) (hn : NoNaN h) (c : Cond) :
    let v := ((Opt.new info m).after E h).vis
    (c.Throws v ∧ (c.test E v).2 = .err) ∨ (¬ c.Throws v ∧ ∃ b, (c.test E v).2 = .ok b ∧ (b = true ↔ c.Holds E v)) :=
  test_holds (askable_history E info m hd h hv hs hn) c

/-- **C32.** A condition that was added with `add_stop_condition` never throws, unless the window is set explicitly. -/
theorem C32_added_conditions_do_not_throw (E : OptEnv) (info : ObjInfo) (m : Int) (hd : info.dim ≠ 0) (h : List Op)
    (hv : ∀ o ∈ h, o.Valid info) (hk : ∀ n, Op.window n ∉ h) (c : Cond) :
    let s := (Opt.new info m).after E h
    c ∈ s.conds → 0 < c.minWindow → ¬ c.Throws s.vis := by
  intro s hc h0 ht
  have hcap := C30_all_served E info m hd h hv hk c hc
  have : s.vis.capacity = 0 := by
    cases c <;> simp only [Cond.Throws] at ht
    · exact ht.2
    · exact ht.2
  have hcap' : c.minWindow ≤ s.vis.capacity := hcap
  omega

/-- Boundary cases of the conditions: a target that is reached exactly does not stop, a spread equal to epsilon does not stop, a
step limit of 2 stops after exactly 2 steps. -/
example : let v := ((Opt.new optInfo 0).after optEnv [.step { pop := [[.fin 1], [.fin 2]], res := [some (.fin 5), some (.fin 3)] },
    .step { pop := [[.fin 1], [.fin 2]], res := [some (.fin 5), some (.fin 4)] }]).vis
    (((Cond.target (.fin 3)).test optEnv v).2 = .ok false ∧ ((Cond.target (.fin 4)).test optEnv v).2 = .ok true) ∧
    (((Cond.flat (.fin 1)).test optEnv v).2 = .ok false ∧ ((Cond.flat (.fin 2)).test optEnv v).2 = .ok true) ∧
    (((Cond.maxSteps 2).test optEnv v).2 = .ok true ∧ ((Cond.maxSteps 3).test optEnv v).2 = .ok false) ∧
    (((Cond.minProgress (.fin 1) 2).test optEnv v).2 = .err ∧ ((Cond.minProgress (.fin 1) 3).test optEnv v).2 = .ok false) := by
  decide +kernel

/-! ## C24: the first condition that holds -/

theorem testLoop_holds {E : OptEnv} (cs : List Cond) : ∀ (k : Nat) (v : Vis), v.Askable E → (∀ c ∈ cs, ¬ c.Throws v) →
    ((∀ c ∈ cs, ¬ c.Holds E v) ∧ (testLoop E k cs v).2 = .ok none) ∨
    ∃ j c, cs[j]? = some c ∧ c.Holds E v ∧ (∀ (i : Nat) (d : Cond), i < j → cs[i]? = some d → ¬ d.Holds E v) ∧
      (testLoop E k cs v).2 = .ok (some (k + j)) := by
  classical
  induction cs with
  | nil => intro k v h ht; left; exact ⟨by simp, rfl⟩
  | cons c cs ih =>
    intro k v h ht
    have ht0 := ht c (by simp)
    obtain ⟨b, e, hb⟩ := ((test_holds h c).resolve_left (fun hh => ht0 hh.1)).2
    have hcore := test_core E c v
    have hfresh := test_fresh c h.fresh
    simp only [testLoop]
    cases hc : c.test E v with
    | mk v' r =>
    rw [hc] at e hcore hfresh
    simp only at e hcore hfresh
    by_cases hh : c.Holds E v
    · rw [e, hb.2 hh]
      right; exact ⟨0, c, rfl, hh, by intro i d hi; omega, rfl⟩
    · rw [e, show b = false from by cases b <;> simp_all]
      dsimp only
      obtain ⟨-, c2, -, -, -, c6, -⟩ := core_ext hcore
      have ha : v'.Askable E := ⟨hfresh, by rw [c2, c6]; exact h.pop, by rw [c6]; exact h.num⟩
      rcases ih (k + 1) v' ha (fun d hd => by rw [(holds_core (E := E) hcore d).2]; exact ht d (by simp [hd])) with ⟨h1, h2⟩ | ⟨j, d, h1, h2, h3, h4⟩
      · left
        refine ⟨fun d hd => ?_, h2⟩
        rcases List.mem_cons.1 hd with rfl | hd
        · exact hh
        · rw [← (holds_core (E := E) hcore d).1]; exact h1 d hd
      · right
        refine ⟨j + 1, d, h1, (holds_core hcore d).1.1 h2, fun i d' hi hd' => ?_, by rw [h4]; congr 2; omega⟩
        cases i with
        | zero => simp at hd'; subst hd'; exact hh
        | succ i => rw [← (holds_core (E := E) hcore d').1]; exact h3 i d' (by omega) hd'

/-- **C24.** When the optimizer has not stopped, `test_stop_conditions()` returns null if no condition holds, and otherwise the
first one, in the order abort, error, order of addition, that holds. -/
theorem C24_first_condition (E : OptEnv) (info : ObjInfo) (m : Int) (hd : info.dim ≠ 0) (h : List Op) (hv : ∀ o ∈ h, o.Valid info)
    (hs : NoShrink E (Opt.new info m) h) (hn : NoNaN h) :
    let s := (Opt.new info m).after E h
    s.stopped = none → (∀ c ∈ s.conds, ¬ c.Throws s.vis) →
    (∃ b, s.conds[0]? = some .abort ∧ s.conds[1]? = some (.error b)) ∧
    (((∀ c ∈ s.conds, ¬ c.Holds E s.vis) ∧ (s.testStop E).2 = .ok none) ∨
     ∃ j c, s.conds[j]? = some c ∧ c.Holds E s.vis ∧ (∀ (i : Nat) (d : Cond), i < j → s.conds[i]? = some d → ¬ d.Holds E s.vis) ∧
      (s.testStop E).2 = .ok (some j)) := by
  intro s hst ht
  obtain ⟨b, rest, hc⟩ := (history_facts E info m hd h hv).2
  refine ⟨⟨b, by rw [show s.conds = _ from hc]; rfl, by rw [show s.conds = _ from hc]; rfl⟩, ?_⟩
  have key : (s.testStop E).2 = (testLoop E 0 s.conds s.vis).2 := by
    unfold Opt.testStop; rw [hst]; dsimp only
    split <;> rename_i heq
    · rw [heq]
    · rw [heq]
  rw [key]
  rcases testLoop_holds s.conds 0 s.vis (askable_history E info m hd h hv hs hn) ht with h | ⟨j, c, h1, h2, h3, h4⟩
  · exact Or.inl h
  · exact Or.inr ⟨j, c, h1, h2, h3, by simpa using h4⟩

/-- **C24.** The same for `step()`: it returns null if no condition holds after the step, and otherwise the first one that does. -/
theorem C24_step (E : OptEnv) (info : ObjInfo) (m : Int) (hd : info.dim ≠ 0) (h : List Op) (i : In) (hv : ∀ o ∈ h ++ [.step i], o.Valid info)
    (hs : NoShrink E (Opt.new info m) h) (hn : NoNaN (h ++ [.step i])) :
    let s := (Opt.new info m).after E h
    let t := s.step E (Opt.internal E i)
    s.stopped = none → (∀ c ∈ t.1.conds, ¬ c.Throws t.1.vis) →
    ((∀ c ∈ t.1.conds, ¬ c.Holds E t.1.vis) ∧ t.2 = .ok none) ∨
    ∃ j c, t.1.conds[j]? = some c ∧ c.Holds E t.1.vis ∧ (∀ (i : Nat) (d : Cond), i < j → t.1.conds[i]? = some d → ¬ d.Holds E t.1.vis) ∧ t.2 = .ok (some j) := by
  intro s t hst ht
  have hv' : ∀ o ∈ h, o.Valid info := fun o ho => hv o (by simp [ho])
  have hi : i.Valid info := hv (.step i) (by simp)
  obtain ⟨hw, -⟩ := history_facts E info m hd h hv'
  obtain ⟨h1, -, h3⟩ := id hw
  have hd' : s.vis.info.dim ≠ 0 := by rw [h1]; exact hd
  have hi' : i.Valid s.vis.info := by rw [h1]; exact hi
  have hl' : s.vis.bestPoint.length = s.vis.info.dim := by rw [h1]; exact h3
  have hpt : t = (s.preTest E i).testStop E := step_preTest hd' hi' hl'
  have hcore : (s.vis.stepped E i).core = t.1.vis.core := by rw [hpt, testStop_core, preTest_vis hi' hl']
  have hsh : NoShrink E (Opt.new info m) (h ++ [.step i]) := by
    clear hpt hcore ht hst hv' hw h1 h3 hd' hi' hl' t
    clear s
    generalize Opt.new info m = s at hs ⊢
    induction h generalizing s with
    | nil => exact ⟨by simp, trivial⟩
    | cons a h ih => exact ⟨hs.1, ih (fun o ho => hv o (by simp at ho ⊢; tauto)) (fun j hj => hn j (by simp at hj ⊢; tauto)) _ hs.2⟩
  have hask := askable_history E info m hd _ hv hsh hn
  rw [after_append] at hask
  have hask' : t.1.vis.Askable E := hask
  obtain ⟨-, c2, -, -, -, c6, -⟩ := core_ext hcore
  have ha : (s.preTest E i).vis.Askable E := by
    rw [preTest_vis hi' hl']
    exact ⟨stepped_fresh (fresh_history E info m hd h hv' hs), by rw [c2, c6]; exact hask'.pop, by rw [c6]; exact hask'.num⟩
  have hcs : t.1.conds = (s.preTest E i).conds := by rw [hpt, testStop_conds]
  have hst' : (s.preTest E i).stopped = none := by rw [(preTest_stopped hi' hl').1]; exact hst
  have key : t.2 = (testLoop E 0 (s.preTest E i).conds (s.preTest E i).vis).2 := by
    rw [hpt]
    unfold Opt.testStop; rw [hst']; dsimp only
    split <;> rename_i heq
    · rw [heq]
    · rw [heq]
  have hcv : (s.preTest E i).vis.core = t.1.vis.core := by rw [preTest_vis hi' hl']; exact hcore
  rw [key, hcs]
  rcases testLoop_holds (s.preTest E i).conds 0 _ ha (fun c hc => by rw [(holds_core (E := E) hcv c).2]; exact ht c (by rw [hcs]; exact hc)) with ⟨h4, h5⟩ | ⟨j, c, h4, h5, h6, h7⟩
  · exact Or.inl ⟨fun c hc => by rw [← (holds_core (E := E) hcv c).1]; exact h4 c hc, h5⟩
  · exact Or.inr ⟨j, c, h4, (holds_core (E := E) hcv c).1.1 h5, fun i d hi hd => by rw [← (holds_core (E := E) hcv d).1]; exact h6 i d hi hd, by simpa using h7⟩

/-- The conditions that were added, in order. -/
def addedConds (h : List Op) : List Cond :=
  h.filterMap fun o => match o with
    | .addCond c => some c
    | _ => none

/-- **C24.** The conditions of an optimizer are the abort condition, the error condition, which holds once a step has failed, and those added, in the order of addition. -/
theorem C24_conditions (E : OptEnv) (info : ObjInfo) (m : Int) (hd : info.dim ≠ 0) (h : List Op) (hv : ∀ o ∈ h, o.Valid info) :
    ∃ b, ((Opt.new info m).after E h).conds = .abort :: .error b :: addedConds h ∧ (b = true ↔ ∃ i, Op.step i ∈ h ∧ i.Failed m) := by
  refine (history_induction (E := E) hd (new_WF info m) (fun h s => ∃ b, s.conds = .abort :: .error b :: addedConds h ∧ (b = true ↔ ∃ i, Op.step i ∈ h ∧ i.Failed m)) ?_ ?_ h hv).2
  · exact ⟨false, new_conds info m, by simp⟩
  · intro h s o hw ho ih
    obtain ⟨b, hb, hb'⟩ := ih
    cases o with
    | step i =>
      obtain ⟨rfl, hm, hl⟩ := hw
      have hcs : ((Op.step i).apply E s).conds = if i.Failed s.vis.maxErrors then setError s.conds else s.conds := by
        show (s.step E (Opt.internal E i)).1.conds = _
        rw [step_preTest hd ho hl, testStop_conds, (preTest_stopped ho hl).2]
      rw [hm] at hcs
      by_cases hf : i.Failed m
      · exact ⟨true, by rw [hcs, if_pos hf, hb]; simp [addedConds, setError], by simp only [true_iff]; exact ⟨i, by simp, hf⟩⟩
      · refine ⟨b, by rw [hcs, if_neg hf, hb]; simp [addedConds], hb'.trans ⟨fun ⟨j, hj, hj'⟩ => ⟨j, by simp [hj], hj'⟩, fun ⟨j, hj, hj'⟩ => ?_⟩⟩
        rw [List.mem_append, List.mem_singleton] at hj
        rcases hj with hj | hj
        · exact ⟨j, hj, hj'⟩
        · cases hj; exact absurd hj' hf
    | addCond c => exact ⟨b, by simp [Op.apply, Opt.addCond, hb, addedConds], hb'.trans ⟨fun ⟨j, hj, hj'⟩ => ⟨j, by simp [hj], hj'⟩, fun ⟨j, hj, hj'⟩ => ⟨j, by simpa using hj, hj'⟩⟩⟩
    | test =>
      exact ⟨b, by show (s.testStop E).1.conds = _; rw [testStop_conds, hb]; simp [addedConds], hb'.trans ⟨fun ⟨j, hj, hj'⟩ => ⟨j, by simp [hj], hj'⟩, fun ⟨j, hj, hj'⟩ => ⟨j, by simpa using hj, hj'⟩⟩⟩
    | _ => exact ⟨b, by simp only [addedConds, List.filterMap_append] at hb ⊢; simpa [Op.apply, Opt.interrupt] using hb, hb'.trans ⟨fun ⟨j, hj, hj'⟩ => ⟨j, by simp [hj], hj'⟩, fun ⟨j, hj, hj'⟩ => ⟨j, by simpa using hj, hj'⟩⟩⟩

end Spot
