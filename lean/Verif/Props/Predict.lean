import Verif.Props.Tracking

/-! # C85: what `predicted_fitness` predicts -/

namespace Spot

/-- The regression reproduces the line `L` from at least two of its points (true for repeated medians in exact arithmetic). -/
def RegExact (E : OptEnv) (L : Lin) : Prop := ∀ (start : Nat) (l : List Dbl), 2 ≤ l.length →
    (∀ j (hj : j < l.length), l[j] = E.evalLin L (start + j)) → ∀ x, E.evalLin (E.regress start l) x = E.evalLin L x

theorem noShrink_concat (E : OptEnv) : ∀ (a b : List Op) (s : Opt), NoShrink E s a → NoShrink E (s.after E a) b → NoShrink E s (a ++ b)
  | [], _, _, _, hb => hb
  | _ :: a, b, _, ha, hb => ⟨ha.1, noShrink_concat E a b _ ha.2 hb⟩

theorem noShrink_quiet (E : OptEnv) (w : Nat) : ∀ (a : List Op) (s : Opt), (∀ o ∈ a, o.keepsWindow w) → NoShrink E s a
  | [], _, _ => trivial
  | o :: a, s, h => ⟨fun n hn => absurd (h o (by simp)) (by rw [hn]; exact id), noShrink_quiet E w a _ (fun o ho => h o (by simp [ho]))⟩

theorem after_concat (E : OptEnv) : ∀ (a b : List Op) (s : Opt), s.after E (a ++ b) = (s.after E a).after E b := by
  intro a b s
  simp [Opt.after, List.foldl_append]

/-- Calls before tracking is enabled: nothing is recorded, steps are counted. -/
theorem untracked (E : OptEnv) (info : ObjInfo) (m : Int) (hd : info.dim ≠ 0) (h : List Op) (hv : ∀ o ∈ h, o.Valid info)
    (hk : ∀ o ∈ h, o.keepsWindow 0) : ((Opt.new info m).after E h).vis.WF info m ∧
    ((Opt.new info m).after E h).vis.history = [] ∧ ((Opt.new info m).after E h).vis.samples = 0 ∧
    ((Opt.new info m).after E h).vis.capacity = 0 ∧ ((Opt.new info m).after E h).vis.stepCount = (completed m h).length := by
  have := history_induction (E := E) hd (new_WF info m) (fun h s => (∀ o ∈ h, o.keepsWindow 0) → s.vis.history = [] ∧ s.vis.samples = 0 ∧
    s.vis.capacity = 0 ∧ s.vis.stepCount = (completed m h).length) (fun _ => by simp [Opt.new, Opt.init, Opt.addCond, Cond.minWindow, completed]) ?_ h hv
  · exact ⟨this.1, this.2 hk⟩
  · intro h s o hw ho ih hk
    obtain ⟨i1, i2, i3, i4⟩ := ih (fun o ho => hk o (by simp [ho]))
    have hko := hk o (by simp)
    obtain ⟨-, c2, -, -, -, -, -, c8, c9, c10, -⟩ := core_ext (apply_core E s o hd hw ho)
    rw [c2, c8, c9, c10, completed_append]
    cases o with
    | step i =>
      show (s.vis.stepped E i).history = _ ∧ (s.vis.stepped E i).samples = _ ∧ (s.vis.stepped E i).capacity = 0 ∧ (s.vis.stepped E i).stepCount = _
      rw [completed_step]
      by_cases hf : i.Failed m
      · rw [if_pos hf, stepped_failed E (by rw [hw.maxErr]; exact hf)]
        simp only [List.append_nil]
        cases i.interrupt <;> exact ⟨i1, i2, i3, i4⟩
      · rw [if_neg hf]
        obtain ⟨-, -, -, -, -, e6, e7, -, e9, e10⟩ := stepped_completed E (v := s.vis) (i := i) (by rw [hw.maxErr]; exact hf)
        rw [e6, e7, e9, e10, i3]
        simp [i1, i2, i4]
    | addCond c =>
      have hc : c.minWindow ≤ 0 := hko
      simp only [Op.onVis]
      rw [if_neg (by rw [i3]; omega)]
      simpa [completed] using ⟨i1, i2, i3, i4⟩
    | window n => exact absurd hko id
    | _ => simpa [completed] using ⟨i1, i2, i3, i4⟩

/-- Tracking switched on after any calls `h` without it, then any calls `h'` that keep the window. -/
theorem tracked_late (E : OptEnv) (info : ObjInfo) (m : Int) (hd : info.dim ≠ 0) (h h' : List Op) (w : Nat) (hw0 : 0 < w)
    (hv : ∀ o ∈ h ++ h', o.Valid info) (hk : ∀ o ∈ h, o.keepsWindow 0) (hk' : ∀ o ∈ h', o.keepsWindow w) :
    let v := ((Opt.new info m).after E (h ++ [.window w] ++ h')).vis
    v.history = lastN w ((completed m h').map fun i => E.toFloat (i.best info)) ∧ v.samples = (completed m h').length ∧
    v.stepCount = (completed m h).length + (completed m h').length ∧ v.capacity = w ∧ v.Fresh E := by
  have hv0 : ∀ o ∈ h, o.Valid info := fun o ho => hv o (by simp [ho])
  have hv1 : ∀ o ∈ h', o.Valid info := fun o ho => hv o (by simp [ho])
  obtain ⟨u0, u1, u2, u3, u4⟩ := untracked E info m hd h hv0 hk
  have hwin : (Opt.new info m).after E (h ++ [.window w]) = (Op.window w).apply E ((Opt.new info m).after E h) := by
    rw [after_append]; rfl
  have hwf : ((Opt.new info m).after E (h ++ [.window w])).vis.WF info m :=
    (history_induction (E := E) hd (new_WF info m) (fun _ _ => True) trivial (fun _ _ _ _ _ _ => trivial) (h ++ [.window w]) (by
      intro o ho
      rcases List.mem_append.1 ho with ho | ho
      · exact hv0 o ho
      · rw [List.mem_singleton.1 ho]; trivial)).1
  have hs0 : ((Opt.new info m).after E (h ++ [.window w])).vis = ((Opt.new info m).after E h).vis.setWindow w := by rw [hwin]; rfl
  have b1 : ((Opt.new info m).after E (h ++ [.window w])).vis.history = [] := by rw [hs0]; simp [Vis.setWindow, u1]
  have b2 : ((Opt.new info m).after E (h ++ [.window w])).vis.samples = 0 := by rw [hs0]; simp [Vis.setWindow, u2]
  have b3 : ((Opt.new info m).after E (h ++ [.window w])).vis.stepCount = (completed m h).length := by rw [hs0]; simp [Vis.setWindow, u4]
  have b4 : ((Opt.new info m).after E (h ++ [.window w])).vis.capacity = w := by rw [hs0]; simp [Vis.setWindow]
  have hfr : ((Opt.new info m).after E (h ++ [.window w] ++ h')).vis.Fresh E := by
    refine fresh_history E info m hd _ ?_ ?_
    · intro o ho
      simp only [List.mem_append, List.mem_singleton] at ho
      rcases ho with (ho | rfl) | ho
      · exact hv0 o ho
      · trivial
      · exact hv1 o ho
    · refine noShrink_concat E _ _ _ (noShrink_concat E _ _ _ (noShrink_quiet E 0 h _ hk) ⟨?_, trivial⟩) (noShrink_quiet E w h' _ hk')
      intro n _
      rw [u1]
      simp
  have := (history_induction (E := E) hd hwf (fun h' s => (∀ o ∈ h', o.keepsWindow w) →
    s.vis.history = lastN w ((completed m h').map fun i => E.toFloat (i.best info)) ∧ s.vis.samples = (completed m h').length ∧
    s.vis.stepCount = (completed m h).length + (completed m h').length ∧ s.vis.capacity = w)
    (fun _ => ⟨by simp [b1, completed, lastN], by simp [b2, completed], by rw [b3]; simp [completed], b4⟩)
    ?_ h' hv1).2 hk'
  · rw [← after_concat] at this
    exact ⟨this.1, this.2.1, this.2.2.1, this.2.2.2, hfr⟩
  · intro h'' s o hw ho ih hk
    obtain ⟨i1, i2, i3, i4⟩ := ih (fun o ho => hk o (by simp [ho]))
    have hko := hk o (by simp)
    obtain ⟨-, c2, -, -, -, -, -, c8, c9, c10, -⟩ := core_ext (apply_core E s o hd hw ho)
    rw [c2, c8, c9, c10, completed_append]
    cases o with
    | step i =>
      show (s.vis.stepped E i).history = _ ∧ (s.vis.stepped E i).samples = _ ∧ (s.vis.stepped E i).stepCount = _ ∧
        (s.vis.stepped E i).capacity = w
      rw [completed_step]
      by_cases hf : i.Failed m
      · rw [if_pos hf, stepped_failed E (by rw [hw.maxErr]; exact hf)]
        simp only [List.append_nil]
        cases i.interrupt <;> exact ⟨i1, i2, i3, i4⟩
      · rw [if_neg hf]
        obtain ⟨-, -, -, -, -, e6, e7, -, e9, e10⟩ := stepped_completed E (v := s.vis) (i := i) (by rw [hw.maxErr]; exact hf)
        rw [e6, e7, e9, e10, i4, if_pos hw0, if_pos hw0, hw.info_eq]
        refine ⟨?_, by simp [i2], by rw [i3]; simp; omega, rfl⟩
        rw [i1, List.map_append, List.map_singleton, lastN_snoc hw0]
    | addCond c =>
      have hc : c.minWindow ≤ w := hko
      simp only [Op.onVis]
      rw [if_neg (by rw [i4]; omega)]
      simpa [completed] using ⟨i1, i2, i3, i4⟩
    | window n => exact absurd hko id
    | _ => simpa [completed] using ⟨i1, i2, i3, i4⟩

/-- **C85.** Let tracking be switched on (window at least 2) after any calls `h` without tracking, of which `s0` were completed steps, followed by any calls `h'` that
keep the window with at least two completed steps. If the best fitnesses of the completed steps of `h'` are on a line `L` over their number 0, 1, 2, ... and the
regression reproduces that line, then `predicted_fitness( k )` is the value of the line at number `n + s0 + k`, where `n` is the number of completed steps in `h'`. -/
theorem C85_prediction (E : OptEnv) (info : ObjInfo) (m : Int) (hd : info.dim ≠ 0) (h h' : List Op) (w : Nat) (hw0 : 2 ≤ w)
    (hv : ∀ o ∈ h ++ h', o.Valid info) (hk : ∀ o ∈ h, o.keepsWindow 0) (hk' : ∀ o ∈ h', o.keepsWindow w)
    (L : Lin) (hreg : RegExact E L) (h2 : 2 ≤ (completed m h').length)
    (hline : ∀ j (hj : j < (completed m h').length), E.toFloat ((completed m h')[j].best info) = E.evalLin L j) (k : Nat) :
    (((Opt.new info m).after E (h ++ [.window w] ++ h')).vis.predictedFitness E k).2 =
      .ok (E.evalLin L ((completed m h').length + (completed m h).length + k)) := by
  obtain ⟨t1, t2, t3, t4, t5⟩ := tracked_late E info m hd h h' w (by omega) hv hk hk'
  have hlen : ((Opt.new info m).after E (h ++ [.window w] ++ h')).vis.history.length = min w (completed m h').length := by
    rw [t1, lastN_length, List.length_map]
  rw [predicted_eq t5, t4, if_neg (by omega)]
  unfold Vis.truePrediction Vis.trueTrend
  rw [if_neg (by rw [hlen]; omega), if_pos (by rw [hlen]; omega), t3, t2, hlen]
  have e : (((completed m h').length : Int) - ((min w (completed m h').length : Nat) : Int)) = (((completed m h').length - min w (completed m h').length : Nat) : Int) := by
    omega
  rw [e]
  congr 1
  rw [Nat.add_comm (completed m h).length]
  refine hreg _ _ (by rw [hlen]; omega) ?_ _
  intro j hj
  have hj' : j < min w (completed m h').length := by rw [← hlen]; exact hj
  simp only [t1]
  unfold lastN
  rw [List.getElem_drop, List.getElem_map, hline]
  simp only [List.length_map]
  congr 1
  omega

/-- **C85.** If tracking is on from the start, that is the value the line has `k` steps after the next one: the fitness of the step numbered `n + k` (counted from 0). -/
theorem C85_from_start (E : OptEnv) (info : ObjInfo) (m : Int) (hd : info.dim ≠ 0) (h h' : List Op) (w : Nat) (hw0 : 2 ≤ w)
    (hv : ∀ o ∈ h ++ h', o.Valid info) (hk : ∀ o ∈ h, o.keepsWindow 0) (hk' : ∀ o ∈ h', o.keepsWindow w) (hfresh : ∀ i, Op.step i ∉ h)
    (L : Lin) (hreg : RegExact E L) (h2 : 2 ≤ (completed m h').length)
    (hline : ∀ j (hj : j < (completed m h').length), E.toFloat ((completed m h')[j].best info) = E.evalLin L j) (k : Nat) :
    (((Opt.new info m).after E (h ++ [.window w] ++ h')).vis.predictedFitness E k).2 = .ok (E.evalLin L ((completed m h').length + k)) := by
  have h0 : completed m h = [] := by
    unfold completed
    rw [List.filterMap_eq_nil_iff]
    intro o ho
    cases o with
    | step i => exact absurd ho (hfresh i)
    | _ => rfl
  rw [C85_prediction E info m hd h h' w hw0 hv hk hk' L hreg h2 hline k, h0]
  rfl

/-- **C85 (finding).** If tracking is switched on late, the prediction is not the fitness the line has `k` steps after the next one, but `s0` steps later, unless both are equal. -/
theorem C85_late_wrong (E : OptEnv) (info : ObjInfo) (m : Int) (hd : info.dim ≠ 0) (h h' : List Op) (w : Nat) (hw0 : 2 ≤ w)
    (hv : ∀ o ∈ h ++ h', o.Valid info) (hk : ∀ o ∈ h, o.keepsWindow 0) (hk' : ∀ o ∈ h', o.keepsWindow w)
    (L : Lin) (hreg : RegExact E L) (h2 : 2 ≤ (completed m h').length)
    (hline : ∀ j (hj : j < (completed m h').length), E.toFloat ((completed m h')[j].best info) = E.evalLin L j) (k : Nat)
    (hne : E.evalLin L ((completed m h').length + k) ≠ E.evalLin L ((completed m h').length + k + (completed m h).length)) :
    (((Opt.new info m).after E (h ++ [.window w] ++ h')).vis.predictedFitness E k).2 ≠ .ok (E.evalLin L ((completed m h').length + k)) := by
  rw [C85_prediction E info m hd h h' w hw0 hv hk hk' L hreg h2 hline k]
  intro he
  have he := Res.ok.inj he
  apply hne
  rw [← he]
  congr 1
  omega

/-- A regression through the first two points, in exact arithmetic. -/
def lineEnv : OptEnv where
  toFloat x := x
  regress start l := match l with
    | .fin a :: .fin b :: _ => ⟨.fin (b - a), .fin (a - (b - a) * start)⟩
    | _ => ⟨.fin 0, .fin 0⟩
  evalLin t x := match t.slope, t.intercept with
    | .fin s, .fin i => .fin (s * x + i)
    | _, _ => .nan
  relSlope _ _ _ := .fin 0

theorem lineEnv_exact (s i : ℚ) : RegExact lineEnv ⟨.fin s, .fin i⟩ := by
  intro start l hl hj x
  match l, hl with
  | a :: b :: l, _ =>
    have h0 := hj 0 (by simp)
    have h1 := hj 1 (by simp)
    simp only [List.getElem_cons_zero, List.getElem_cons_succ, lineEnv] at h0 h1
    subst h0 h1
    simp only [lineEnv, Dbl.fin.injEq]
    push_cast
    ring

/-- Three steps with fitness 10, 8, 6; the next one would have 4. Tracked from the start that is predicted; if the first step was not tracked, the prediction is 2. -/
example : let st (f : ℚ) : Op := .step { pop := [[.fin 1]], res := [some (.fin f)] }
    (((Opt.new optInfo 0).after lineEnv [.window 5, st 10, st 8, st 6]).vis.predictedFitness lineEnv 0).2 = .ok (.fin 4) ∧
    (((Opt.new optInfo 0).after lineEnv [st 10, .window 5, st 8, st 6]).vis.predictedFitness lineEnv 0).2 = .ok (.fin 2) := by
  constructor <;> decide +kernel

end Spot
