import Verif.Lemmas.Optimizer

/-!
# C20 - C23: what the optimizer reports as best

`info` is the objective's info, `m` the number of tolerated errors (0 unless a subclass changes it), `h` any history of calls.
-/

namespace Spot

/-- No objective function returned NaN. -/
def NoNaN (h : List Op) : Prop := ∀ i, Op.step i ∈ h → ∀ f, some f ∈ i.res → f ≠ .nan

theorem NoNaN.left {h : List Op} {o : Op} (hn : NoNaN (h ++ [o])) : NoNaN h := fun i hi => hn i (by simp [hi])

/-- The invariant behind C20 and C21. -/
def BestInv (info : ObjInfo) (ev : List (Pt × Dbl)) (v : Vis) : Prop :=
  ((v.bestFitness = info.worstFitness ∧ v.bestPoint = (SearchPoint.ofInfo info).values ∧
      ∀ e ∈ ev, info.isBetter e.2 info.worstFitness = false) ∨
   (info.isBetter v.bestFitness info.worstFitness = true ∧ v.bestFitness ≠ .nan ∧
      ∃ pre pt post, ev = pre ++ (pt, v.bestFitness) :: post ∧ (∀ e ∈ pre, info.isBetter v.bestFitness e.2 = true) ∧
        (∀ e ∈ post, info.isBetter e.2 v.bestFitness = false) ∧ v.bestPoint = pt.map rounded)) ∧
  ∀ e ∈ ev, e.2 ≠ .nan

theorem bestInv_congr {info : ObjInfo} {ev : List (Pt × Dbl)} {v w : Vis} (h1 : v.bestFitness = w.bestFitness)
    (h2 : v.bestPoint = w.bestPoint) (h : BestInv info ev w) : BestInv info ev v := by
  unfold BestInv at *; rw [h1, h2]; exact h

theorem bestInv_not_better {info : ObjInfo} {ev : List (Pt × Dbl)} {v : Vis} (h : BestInv info ev v) :
    v.bestFitness ≠ .nan ∧ ∀ e ∈ ev, info.isBetter e.2 v.bestFitness = false := by
  obtain ⟨h | h, hn⟩ := h
  · rw [h.1]; exact ⟨worst_ne_nan info, h.2.2⟩
  · obtain ⟨_, hb, pre, pt, post, rfl, h1, h2, _⟩ := h
    refine ⟨hb, fun e he => ?_⟩
    simp only [List.mem_append, List.mem_cons] at he
    rcases he with he | rfl | he
    · exact (C67_strict_order info).2.1 _ _ (h1 e he)
    · exact (C67_strict_order info).1 _
    · exact h2 e he

theorem bestInv_step {E : OptEnv} {info : ObjInfo} {m : Int} {ev : List (Pt × Dbl)} {v : Vis} {i : In} (hw : v.WF info m)
    (hv : i.Valid info) (hn : ∀ f, some f ∈ i.res → f ≠ .nan) (h : BestInv info ev v) :
    BestInv info (ev ++ i.evals info m) (v.stepped E i) := by
  obtain ⟨hi, hm, -⟩ := hw
  unfold In.evals
  by_cases hf : i.Failed m
  · rw [if_pos hf, List.append_nil, stepped_failed E (by rw [hm]; exact hf)]
    refine bestInv_congr ?_ ?_ h <;> cases i.interrupt <;> rfl
  · rw [if_neg hf]
    obtain ⟨e1, e2, -⟩ := stepped_completed E (v := v) (i := i) (by rw [hm]; exact hf)
    obtain ⟨pre, post, hs, hp1, hp2⟩ := evals_split hv hn
    obtain ⟨hbn, hnb⟩ := bestInv_not_better h
    have hfn : i.best info ≠ .nan := (hp2 (i.bestPt info, i.best info) (by simp)).2
    rw [hs]
    rw [hi] at e1 e2
    by_cases hb : info.isBetter (i.best info) v.bestFitness = true
    · rw [if_pos hb] at e1 e2
      refine ⟨Or.inr ⟨?_, ?_, ev ++ pre, i.bestPt info, post, ?_, ?_, ?_, ?_⟩, ?_⟩
      · rw [e1]
        rcases h.1 with h | h
        · rw [← h.1]; exact hb
        · exact (C67_strict_order info).2.2.1 _ _ _ hb h.1
      · rw [e1]; exact hfn
      · rw [e1]; simp
      · rw [e1]; intro e he
        rcases List.mem_append.1 he with he | he
        · exact better_of_not_of hfn hbn (h.2 e he) hb (hnb e he)
        · exact hp1 e he
      · rw [e1]; intro e he; exact (hp2 e (by simp [he])).1
      · exact e2
      · intro e he
        rcases List.mem_append.1 he with he | he
        · exact h.2 e he
        · exact (hp2 e he).2
    · rw [if_neg hb] at e1 e2
      refine bestInv_congr e1 e2 ⟨?_, ?_⟩
      · have hall : ∀ e ∈ pre ++ (i.bestPt info, i.best info) :: post, info.isBetter e.2 v.bestFitness = false := fun e he =>
          not_better_trans (hp2 e he).2 hfn hbn (hp2 e he).1 (by simpa using hb)
        rcases h.1 with h | ⟨h1, h2, pre', pt', post', he, h3, h4, h5⟩
        · left
          refine ⟨h.1, h.2.1, fun e he => ?_⟩
          rcases List.mem_append.1 he with he | he
          · exact h.2.2 e he
          · rw [← h.1]; exact hall e he
        · right
          refine ⟨h1, h2, pre', pt', post' ++ (pre ++ (i.bestPt info, i.best info) :: post), by rw [he]; simp, h3, ?_, h5⟩
          intro e he
          rcases List.mem_append.1 he with he | he
          · exact h4 e he
          · exact hall e he
      · intro e he
        rcases List.mem_append.1 he with he | he
        · exact h.2 e he
        · exact (hp2 e he).2

theorem best_history (E : OptEnv) (info : ObjInfo) (m : Int) (hd : info.dim ≠ 0) (h : List Op) (hv : ∀ o ∈ h, o.Valid info)
    (hn : NoNaN h) : BestInv info (evalsOf info m h) ((Opt.new info m).after E h).vis := by
  refine (history_induction (E := E) hd (new_WF info m) (fun h s => NoNaN h → BestInv info (evalsOf info m h) s.vis) ?_ ?_ h hv).2 hn
  · intro _
    refine ⟨Or.inl ⟨?_, ?_, by simp [evalsOf]⟩, by simp [evalsOf]⟩ <;> simp [Opt.new, Opt.init, Opt.addCond, Cond.minWindow]
  · intro h s o hw ho ih hn
    have ih := ih hn.left
    have hc := apply_core E s o hd hw ho
    obtain ⟨-, -, h3, h4, -⟩ := core_ext hc
    rw [evalsOf_append]
    refine bestInv_congr h3 h4 ?_
    cases o with
    | step i => exact bestInv_step hw ho (hn i (by simp)) ih
    | addCond c =>
      simp only [Op.evals, List.append_nil, Op.onVis]
      split
      · exact bestInv_congr rfl rfl ih
      · exact ih
    | _ =>
      simp only [Op.evals, List.append_nil, Op.onVis]
      exact bestInv_congr rfl rfl ih

/-! ## C20 -/

/-- **C20.** Whatever was called: `best_fitness()` is one of the fitnesses of the completed steps or the initial worst value, and
no fitness of any completed step is better. -/
theorem C20_best_fitness (E : OptEnv) (info : ObjInfo) (m : Int) (hd : info.dim ≠ 0) (h : List Op) (hv : ∀ o ∈ h, o.Valid info)
    (hn : NoNaN h) :
    let best := ((Opt.new info m).after E h).vis.bestFitness
    (best = info.worstFitness ∨ ∃ e ∈ evalsOf info m h, e.2 = best) ∧ info.isBetter info.worstFitness best = false ∧
      ∀ e ∈ evalsOf info m h, info.isBetter e.2 best = false := by
  have hi := best_history E info m hd h hv hn
  obtain ⟨-, h2⟩ := bestInv_not_better hi
  intro best
  rcases hi.1 with h | ⟨h1, _, pre, pt, post, he, _⟩
  · exact ⟨Or.inl h.1, by show info.isBetter _ best = false; rw [show best = _ from h.1]; exact (C67_strict_order info).1 _, h2⟩
  · exact ⟨Or.inr ⟨_, by rw [he]; exact List.mem_append_right _ List.mem_cons_self, rfl⟩, (C67_strict_order info).2.1 _ _ h1, h2⟩

/-- **C20.** Even if the objective returns NaN, no call makes `best_fitness()` worse: it stays or becomes strictly better. -/
theorem C20_never_worse (E : OptEnv) (info : ObjInfo) (m : Int) (hd : info.dim ≠ 0) (h h' : List Op)
    (hv : ∀ o ∈ h ++ h', o.Valid info) :
    let old := ((Opt.new info m).after E h).vis.bestFitness
    let new := ((Opt.new info m).after E (h ++ h')).vis.bestFitness
    new = old ∨ info.isBetter new old = true := by
  have hw := (history_induction (E := E) hd (new_WF info m) (fun _ _ => True) trivial (by simp) h (fun o ho => hv o (by simp [ho]))).1
  intro old new
  have := (history_induction (E := E) hd hw (fun _ s => s.vis.bestFitness = old ∨ info.isBetter s.vis.bestFitness old = true)
    (Or.inl rfl) ?_ h' (fun o ho => hv o (by simp [ho]))).2
  · rw [← after_append] at this; exact this
  · intro h s o hw ho ih
    have hc := apply_core E s o hd hw ho
    obtain ⟨-, -, h3, -⟩ := core_ext hc
    rw [h3]
    cases o with
    | step i =>
      show (s.vis.stepped E i).bestFitness = old ∨ info.isBetter (s.vis.stepped E i).bestFitness old = true
      by_cases hf : i.Failed s.vis.maxErrors
      · rw [stepped_failed E hf]
        cases i.interrupt <;> exact ih
      · rw [(stepped_completed E hf).1, hw.info_eq]
        split
        · rename_i hb
          rcases ih with ih | ih
          · exact Or.inr (by rw [← ih]; exact hb)
          · exact Or.inr ((C67_strict_order info).2.2.1 _ _ _ hb ih)
        · exact ih
    | addCond c =>
      simp only [Op.onVis]
      split <;> exact ih
    | _ => exact ih

/-- One parameter, minimizing. -/
def optInfo : ObjInfo := { minimize := true, pars := [{ name := "x".toList, mean := .fin 0, std := .fin 1, min := .fin (-5), max := .fin 5 }] }

def optEnv : OptEnv := { toFloat := id, regress := fun _ _ => ⟨.fin 0, .fin 0⟩, evalLin := fun l _ => l.intercept, relSlope := fun l _ _ => l.slope }

/-- Two steps; in the second one an evaluation fails. -/
def optHist : List Op :=
  [.window 4, .step { pop := [[.fin 1], [.fin 2], [.fin 3]], res := [some (.fin 7), some (.fin 4), some (.fin 4)] }, .trend,
   .step { pop := [[.fin 0], [.fin 2]], res := [some (.fin 6), none] }, .step { pop := [[.fin 0], [.fin 2]], res := [some (.fin 6), some (.fin 5)] }]

example : optInfo.dim ≠ 0 ∧ (∀ o ∈ optHist, o.Valid optInfo) ∧ NoNaN optHist := by
  refine ⟨by decide, ?_, ?_⟩
  · intro o ho
    simp only [optHist, List.mem_cons, List.not_mem_nil, or_false] at ho
    rcases ho with rfl | rfl | rfl | rfl | rfl <;> first | trivial | exact ⟨by decide, by decide, by decide⟩
  · intro i hi f hf
    simp only [optHist, List.mem_cons, List.not_mem_nil, or_false, Op.step.injEq, reduceCtorEq, false_or] at hi
    rcases hi with rfl | rfl | rfl <;> simp at hf <;> rcases hf with rfl | rfl | rfl <;> simp

example : ((Opt.new optInfo 0).after optEnv optHist).vis.bestFitness = .fin 4 ∧
    ((Opt.new optInfo 0).after optEnv optHist).vis.bestPoint = [.fin 2] := by decide +kernel

/-- **C20 (finding).** A NaN hides better fitnesses of the same population: the best fitness 1 of the only step is not found. -/
theorem C20_nan_hides_best : ∃ (info : ObjInfo) (i : In), i.Valid info ∧ info.dim ≠ 0 ∧ (∃ e ∈ evalsOf info 0 [.step i],
    info.isBetter e.2 ((Opt.new info 0).after optEnv [.step i]).vis.bestFitness = true) :=
  ⟨optInfo, { pop := [[.fin 0], [.fin 1]], res := [some .nan, some (.fin 1)] }, ⟨by decide, by decide, by decide⟩, by decide,
    ([.fin 1], .fin 1), by decide +kernel, by decide +kernel⟩

/-! ## C21 -/

/-- **C21.** Once some completed step was better than the initial worst value, `best_point()` has the values (rounded as every
search point) of the earliest evaluated point with fitness `best_fitness()`: all earlier points are strictly worse. -/
theorem C21_best_point (E : OptEnv) (info : ObjInfo) (m : Int) (hd : info.dim ≠ 0) (h : List Op) (hv : ∀ o ∈ h, o.Valid info)
    (hn : NoNaN h) (hi : ∃ e ∈ evalsOf info m h, info.isBetter e.2 info.worstFitness = true) :
    let v := ((Opt.new info m).after E h).vis
    ∃ pre pt post, evalsOf info m h = pre ++ (pt, v.bestFitness) :: post ∧
      (∀ e ∈ pre, info.isBetter v.bestFitness e.2 = true) ∧ (∀ e ∈ post, info.isBetter e.2 v.bestFitness = false) ∧
      v.bestPoint = pt.map rounded ∧ ((∀ x ∈ pt, rounded x = x) → v.bestPoint = pt) := by
  have hb := best_history E info m hd h hv hn
  rcases hb.1 with h0 | ⟨_, _, pre, pt, post, he, h1, h2, h3⟩
  · obtain ⟨e, he, hb⟩ := hi
    rw [h0.2.2 e he] at hb; exact absurd hb (by simp)
  · refine ⟨pre, pt, post, he, h1, h2, h3, fun hr => ?_⟩
    rw [h3]; conv_rhs => rw [← List.map_id pt]
    exact List.map_congr_left hr

/-- Before that, `best_point()` holds the means. -/
theorem C21_initial (E : OptEnv) (info : ObjInfo) (m : Int) (hd : info.dim ≠ 0) (h : List Op) (hv : ∀ o ∈ h, o.Valid info)
    (hn : NoNaN h) (hi : ∀ e ∈ evalsOf info m h, info.isBetter e.2 info.worstFitness = false) :
    ((Opt.new info m).after E h).vis.bestFitness = info.worstFitness ∧
    ((Opt.new info m).after E h).vis.bestPoint = (info.pars.map ParInfo.mean).map rounded := by
  have hb := best_history E info m hd h hv hn
  rcases hb.1 with h0 | ⟨hb, _, pre, pt, post, he, _⟩
  · exact ⟨h0.1, h0.2.1⟩
  · have := hi (pt, _) (by rw [he]; exact List.mem_append_right _ List.mem_cons_self)
    simp only at this
    rw [hb] at this; exact absurd this (by simp)

/-- **C21.** After a completed step, `current_step_fitnesses()` are its fitnesses in order, and `current_step_best_point()`,
`current_step_best_fitness()` are its first best point and fitness. -/
theorem C21_current_step (E : OptEnv) (info : ObjInfo) (m : Int) (hd : info.dim ≠ 0) (h : List Op) (i : In)
    (hv : ∀ o ∈ h, o.Valid info) (hi : i.Valid info) (hn : ∀ f, some f ∈ i.res → f ≠ .nan) (hf : ¬ i.Failed m) :
    let v := ((Opt.new info m).after E (h ++ [.step i])).vis
    v.curFitnesses = i.res.map (fitOf info) ∧
    ∃ pre post, i.pop.zip v.curFitnesses = pre ++ (v.curPoint, v.curFitness) :: post ∧
      (∀ e ∈ pre, info.isBetter v.curFitness e.2 = true) ∧ (∀ e ∈ post, info.isBetter e.2 v.curFitness = false) := by
  have hw := (history_induction (E := E) hd (new_WF info m) (fun _ _ => True) trivial (by simp) h hv).1
  rw [after_append]
  set s := (Opt.new info m).after E h
  have hc := apply_core E s (.step i) hd hw hi
  obtain ⟨-, -, -, -, h5, h6, h7, -⟩ := core_ext hc
  obtain ⟨-, -, e1, e2, e3, -⟩ := stepped_completed E (v := s.vis) (i := i) (by rw [hw.maxErr]; exact hf)
  rw [hw.info_eq] at e1 e2 e3
  intro v
  have hv1 : v.curFitness = i.best info := h5.trans e1
  have hv2 : v.curPoint = i.bestPt info := h7.trans e2
  have hv3 : v.curFitnesses = i.res.map (fitOf info) := h6.trans e3
  obtain ⟨pre, post, hs, hp1, hp2⟩ := evals_split hi hn
  rw [hv1, hv2, hv3]
  exact ⟨rfl, pre, post, hs, hp1, fun e he => (hp2 e (by simp [he])).1⟩

/-! ## C23 -/

/-- **C23.** A failed evaluation counts with the worst fitness; it never is strictly better than anything that is a finite number,
and a step that changes `best_fitness()` takes both fitness and point from an evaluation that succeeded. -/
theorem C23_failed_never_best (E : OptEnv) (info : ObjInfo) (m : Int) (hd : info.dim ≠ 0) (h : List Op) (i : In)
    (hv : ∀ o ∈ h, o.Valid info) (hi : i.Valid info)
    (hn : NoNaN h) (hn' : ∀ f, some f ∈ i.res → f ≠ .nan)
    (hch : ((Opt.new info m).after E (h ++ [.step i])).vis.bestFitness ≠ ((Opt.new info m).after E h).vis.bestFitness) :
    let v := ((Opt.new info m).after E (h ++ [.step i])).vis
    ∃ (k : Nat) (f : Dbl) (p : Pt), i.res[k]? = some (some f) ∧ i.pop[k]? = some p ∧ v.bestFitness = f ∧ v.bestPoint = p.map rounded := by
  have hw := (history_induction (E := E) hd (new_WF info m) (fun _ _ => True) trivial (by simp) h hv).1
  have hinv := best_history E info m hd h hv hn
  rw [after_append] at hch ⊢
  set s := (Opt.new info m).after E h
  have hc := apply_core E s (.step i) hd hw hi
  obtain ⟨-, -, h3, h4, -⟩ := core_ext hc
  have h3' : (s.after E [.step i]).vis.bestFitness = (s.vis.stepped E i).bestFitness := h3
  have h4' : (s.after E [.step i]).vis.bestPoint = (s.vis.stepped E i).bestPoint := h4
  by_cases hf : i.Failed s.vis.maxErrors
  · exfalso
    apply hch; rw [h3', stepped_failed E hf]
    cases i.interrupt <;> rfl
  · obtain ⟨e1, e2, -⟩ := stepped_completed E (v := s.vis) (i := i) hf
    rw [hw.info_eq] at e1 e2
    by_cases hb : info.isBetter (i.best info) s.vis.bestFitness = true
    · rw [if_pos hb] at e1 e2
      obtain ⟨g1, g2, -⟩ := In.bestPt_get hi
      rw [List.getElem?_map] at g2
      obtain ⟨r, hr, hr'⟩ := Option.map_eq_some_iff.1 g2
      cases r with
      | none =>
        exfalso
        have hbw : info.isBetter s.vis.bestFitness info.worstFitness = true ∨ s.vis.bestFitness = info.worstFitness := by
          rcases hinv.1 with h | h
          · exact Or.inr h.1
          · exact Or.inl h.1
        have hr'' : info.worstFitness = i.best info := hr'
        rw [← hr''] at hb
        rcases hbw with h | h
        · rw [(C67_strict_order info).2.1 _ _ h] at hb; exact absurd hb (by simp)
        · rw [h, (C67_strict_order info).1] at hb; exact absurd hb (by simp)
      | some f =>
        exact ⟨_, f, _, hr, g1, by rw [h3', e1]; exact hr'.symm, by rw [h4', e2]⟩
    · exfalso
      rw [if_neg hb] at e1
      exact hch (by rw [h3', e1])

/-- The last step of `optHist` before the tolerated error, with one error allowed. -/
example : ((Opt.new optInfo 1).after optEnv [.step { pop := [[.fin 0], [.fin 2]], res := [none, some (.fin 6)] }]).vis.bestFitness = .fin 6 ∧
    ((Opt.new optInfo 1).after optEnv [.step { pop := [[.fin 0], [.fin 2]], res := [none, some (.fin 6)] }]).vis.curFitnesses = [.fin Dbl.maxQ, .fin 6] := by
  decide +kernel

/-- **C23.** If every evaluation of a completed step failed, nothing improves. -/
theorem C23_all_failed (E : OptEnv) (info : ObjInfo) (m : Int) (hd : info.dim ≠ 0) (h : List Op) (i : In)
    (hv : ∀ o ∈ h, o.Valid info) (hi : i.Valid info) (hn : NoNaN h) (hall : ∀ r ∈ i.res, r = none) :
    ((Opt.new info m).after E (h ++ [.step i])).vis.bestFitness = ((Opt.new info m).after E h).vis.bestFitness := by
  by_contra hch
  obtain ⟨k, f, p, h1, -⟩ := C23_failed_never_best E info m hd h i hv hi hn (fun f hf => by have := hall _ hf; simp at this) hch
  have := hall _ (List.mem_of_getElem? h1)
  simp at this

end Spot
