import Verif.Spec.Optimizer
import Verif.Lemmas.Dbl
import Verif.Props.Points

namespace Spot

/-! ### the trend cache does not touch anything else -/

@[simp] theorem core_core (v : Vis) : v.core.core = v.core := rfl

theorem fitnessTrend_core (E : OptEnv) (v : Vis) : (v.fitnessTrend E).1.core = v.core := by
  unfold Vis.fitnessTrend; split <;> rfl

theorem progress_core (E : OptEnv) (v : Vis) : (v.progress E).1.core = v.core := by
  unfold Vis.progress; split
  · rfl
  · split
    · exact fitnessTrend_core E v
    · rfl

theorem predicted_core (E : OptEnv) (v : Vis) (k : Nat) : (v.predictedFitness E k).1.core = v.core := by
  unfold Vis.predictedFitness; split
  · rfl
  · split
    · exact fitnessTrend_core E v
    · rfl

theorem test_core (E : OptEnv) (c : Cond) (v : Vis) : (c.test E v).1.core = v.core := by
  cases c with
  | custom w a t => cases a
                    · rfl
                    · exact fitnessTrend_core E v
  | flat e => simp only [Cond.test]; repeat' split
              all_goals rfl
  | minProgress p m =>
    simp only [Cond.test]; have := progress_core E v
    repeat' split
    all_goals simp_all
  | predicted f a m =>
    simp only [Cond.test]; have := predicted_core E v a
    repeat' split
    all_goals simp_all
  | _ => rfl

theorem testLoop_core (E : OptEnv) (cs : List Cond) : ∀ (k : Nat) (v : Vis), (testLoop E k cs v).1.core = v.core := by
  induction cs with
  | nil => intro k v; rfl
  | cons c cs ih =>
    intro k v; simp only [testLoop]; have := test_core E c v
    split <;> simp_all

theorem testStop_core (E : OptEnv) (s : Opt) : (s.testStop E).1.vis.core = s.vis.core := by
  unfold Opt.testStop; have := testLoop_core E s.conds 0 s.vis
  repeat' split
  all_goals simp_all [Opt.signal]

theorem core_ext {v w : Vis} (h : v.core = w.core) : v.info = w.info ∧ v.stepCount = w.stepCount ∧ v.bestFitness = w.bestFitness ∧
    v.bestPoint = w.bestPoint ∧ v.curFitness = w.curFitness ∧ v.curFitnesses = w.curFitnesses ∧ v.curPoint = w.curPoint ∧
    v.samples = w.samples ∧ v.history = w.history ∧ v.capacity = w.capacity ∧ v.stopRequested = w.stopRequested ∧
    v.maxErrors = w.maxErrors := by
  simp only [Vis.core, Vis.mk.injEq] at h; tauto

/-! ### the conditions are only changed by setting the error -/

theorem testStop_conds (E : OptEnv) (s : Opt) : (s.testStop E).1.conds = s.conds := by
  unfold Opt.testStop; repeat' split
  all_goals simp_all [Opt.signal]

/-! ### first best element -/

theorem minElemLoop_fold (cmp : Dbl → Dbl → Bool) (xs : List Dbl) : ∀ (pre : List Dbl) (bi : Nat) (b : Dbl), pre[bi]? = some b →
    (pre ++ xs)[ObjInfo.minElemLoop cmp xs pre.length bi b]? = some (xs.foldl (fun b y => if cmp y b then y else b) b) := by
  induction xs with
  | nil => intro pre bi b h; simpa [ObjInfo.minElemLoop] using h
  | cons x xs ih =>
    intro pre bi b h
    have hlt : bi < pre.length := (List.getElem?_eq_some_iff.1 h).1
    simp only [ObjInfo.minElemLoop, List.foldl_cons]
    split
    · have := ih (pre ++ [x]) pre.length x (by simp)
      simpa using this
    · have := ih (pre ++ [x]) bi b (by rw [List.getElem?_append_left hlt]; exact h)
      simpa using this

theorem minElem_fold (cmp : Dbl → Dbl → Bool) (x : Dbl) (xs : List Dbl) :
    (x :: xs)[ObjInfo.minElem cmp (x :: xs)]? = some (xs.foldl (fun b y => if cmp y b then y else b) x) := by
  simpa [ObjInfo.minElem] using minElemLoop_fold cmp xs [x] 0 x (by simp)

theorem findBest_get (i : ObjInfo) {f : List Dbl} (h : f ≠ []) : f[i.findBestFitness f]? = some (bestOf i f) := by
  cases f with
  | nil => exact absurd rfl h
  | cons x xs =>
    unfold ObjInfo.findBestFitness bestOf ObjInfo.isBetter
    cases i.minimize
    · simpa using minElem_fold (fun x b => Dbl.lt b x) x xs
    · simpa using minElem_fold (fun x b => Dbl.lt x b) x xs

/-! ### one step -/

theorem signal_vis (s : Opt) (e : Event) : (s.signal e).vis = s.vis := rfl

theorem fitOf_eq (info : ObjInfo) : (fun r : Option Dbl => r.getD info.worstFitness) = fitOf info := by
  funext r; cases r <;> rfl

theorem failed_iff (m : Int) (i : In) : i.Failed m ↔ (errorCount i.res : Int) > allowedErrors m i.res.length := by
  have h : errorCount i.res = failures i.res := by
    unfold errorCount failures; rw [List.countP_eq_length_filter]; congr 2
    funext r; cases r <;> simp
  unfold In.Failed allowedErrors; rw [h]; split <;> rfl

/-- The visible state after the evaluations of a completed step, before tracking; `p` is the first best point. -/
def Vis.evaluated (v : Vis) (fs : List Dbl) (f : Dbl) (p : Pt) : Vis :=
  { v with
    curFitnesses := fs, curFitness := f, curPoint := p
    bestFitness := if v.info.isBetter f v.bestFitness then f else v.bestFitness
    bestPoint := if v.info.isBetter f v.bestFitness then p.map rounded else v.bestPoint }

/-- The first best point of a step. -/
def In.bestPt (info : ObjInfo) (i : In) : Pt := (i.pop[info.findBestFitness (i.res.map (fitOf info))]?).getD []

theorem In.bestPt_get {info : ObjInfo} {i : In} (h : i.Valid info) :
    i.pop[info.findBestFitness (i.res.map (fitOf info))]? = some (i.bestPt info) ∧
    (i.res.map (fitOf info))[info.findBestFitness (i.res.map (fitOf info))]? = some (i.best info) ∧ (i.bestPt info).length = info.dim := by
  have hne : i.res.map (fitOf info) ≠ [] := by
    intro hh; have := h.results; simp at hh; rw [hh] at this
    exact h.nonempty (List.eq_nil_of_length_eq_zero (by simpa using this.symm))
  have h1 := findBest_get info hne
  have hlt := (List.getElem?_eq_some_iff.1 h1).1
  simp [h.results] at hlt
  have h2 : i.pop[info.findBestFitness (i.res.map (fitOf info))]? = some (i.bestPt info) := by
    unfold In.bestPt; rw [List.getElem?_eq_getElem hlt]; rfl
  exact ⟨h2, h1, h.sized _ (List.mem_of_getElem? h2)⟩

/-- `signal` several events. -/
def Vis.withInterrupt (v : Vis) (b : Bool) : Vis := if b then { v with stopRequested := true } else v

theorem evaluateStep_failed (E : OptEnv) (s : Opt) (i : In) (hf : i.Failed s.vis.maxErrors) :
    s.evaluateStep E i.pop i.res = ({ s.signal (.preEvaluate i.pop) with conds := setError s.conds }, .ok false) := by
  have := (failed_iff _ _).1 hf
  unfold Opt.evaluateStep; dsimp only
  split
  · rfl
  · rename_i h; exact absurd this h

theorem evaluateStep_completed (E : OptEnv) (s : Opt) (i : In) (hv : i.Valid s.vis.info)
    (hl : s.vis.bestPoint.length = s.vis.info.dim) (hf : ¬ i.Failed s.vis.maxErrors) :
    s.evaluateStep E i.pop i.res =
      (let fs := i.res.map (fitOf s.vis.info)
       let f := i.best s.vis.info
       let p := i.bestPt s.vis.info
       let nb := s.vis.info.isBetter f s.vis.bestFitness
       let v := s.vis.evaluated fs f p
       let a := s.signal (.preEvaluate i.pop)
       let b := { a with vis := v }
       let c := if nb then b.signal (.newBest (p.map rounded) f) else b
       let d := { c with vis := v.track E }
       (d.signal (.postEvaluate i.pop fs nb), .ok true)) := by
  obtain ⟨h1, h2, h3⟩ := In.bestPt_get hv
  have := (failed_iff _ _).not.1 hf
  have hlen : s.vis.bestPoint.length = (i.bestPt s.vis.info).length := by rw [hl, h3]
  unfold Opt.evaluateStep; dsimp only
  split
  · rename_i h; exact absurd h this
  · simp only [signal_vis, fitOf_eq, h1, h2, hlen, if_true]
    by_cases hb : s.vis.info.isBetter (i.best s.vis.info) s.vis.bestFitness = true
    · simp [hb, Vis.evaluated, Opt.signal]
    · simp [hb, Vis.evaluated, Opt.signal]

/-- `internal` in case of a failed step. -/
theorem internal_failed (E : OptEnv) (s : Opt) (i : In) (hf : i.Failed s.vis.maxErrors) :
    Opt.internal E i s =
      (let t := { s.signal (.preEvaluate i.pop) with conds := setError s.conds }
       if i.interrupt then t.interrupt else t, .ok false) := by
  unfold Opt.internal; rw [evaluateStep_failed E s i hf]

theorem internal_completed (E : OptEnv) (s : Opt) (i : In) (hv : i.Valid s.vis.info) (hl : s.vis.bestPoint.length = s.vis.info.dim)
    (hf : ¬ i.Failed s.vis.maxErrors) :
    Opt.internal E i s =
      (let fs := i.res.map (fitOf s.vis.info)
       let f := i.best s.vis.info
       let p := i.bestPt s.vis.info
       let nb := s.vis.info.isBetter f s.vis.bestFitness
       let v := s.vis.evaluated fs f p
       let a := s.signal (.preEvaluate i.pop)
       let b := { a with vis := v }
       let c := if nb then b.signal (.newBest (p.map rounded) f) else b
       let d := { c with vis := v.track E }
       let e := d.signal (.postEvaluate i.pop fs nb)
       if i.interrupt then e.interrupt else e, .ok true) := by
  unfold Opt.internal; rw [evaluateStep_completed E s i hv hl hf]

/-- The visible state after a step. -/
def Vis.stepped (E : OptEnv) (i : In) (v : Vis) : Vis :=
  if i.Failed v.maxErrors then v.withInterrupt i.interrupt
  else ({ (v.evaluated (i.res.map (fitOf v.info)) (i.best v.info) (i.bestPt v.info)).track E with
           stepCount := v.stepCount + 1 } : Vis).withInterrupt i.interrupt

theorem track_fields (E : OptEnv) (v : Vis) : (v.track E) =
    { v with history := (v.track E).history, samples := (v.track E).samples } := by
  unfold Vis.track; split <;> rfl

theorem ite_signal_vis (s : Opt) (e : Event) (c : Prop) [Decidable c] : (if c then s.signal e else s).vis = s.vis := by split <;> rfl

theorem ite_interrupt_vis (s : Opt) (b : Bool) : (if b then s.interrupt else s).vis = s.vis.withInterrupt b := by
  cases b <;> rfl

/-- The state after the callbacks at the begin of a step. -/
def Opt.begun (s : Opt) : Opt := (if s.vis.stepCount = 0 then s.signal .start else s).signal .preStep

theorem begun_vis (s : Opt) : s.begun.vis = s.vis := by unfold Opt.begun; rw [signal_vis, ite_signal_vis]
theorem begun_conds (s : Opt) : s.begun.conds = s.conds := by unfold Opt.begun Opt.signal; split <;> rfl
theorem begun_stopped (s : Opt) : s.begun.stopped = s.stopped := by unfold Opt.begun Opt.signal; split <;> rfl

/-- The state after the callback at the end of a completed step. -/
def Opt.ended (s : Opt) : Opt :=
  { s.signal .postStep with vis := { s.vis with stepCount := s.vis.stepCount + 1 } }

theorem step_true {E : OptEnv} {s t : Opt} {f : Opt → Opt × Res Bool} (hd : s.vis.info.dim ≠ 0) (h : f s.begun = (t, .ok true)) :
    s.step E f = t.ended.testStop E := by
  unfold Opt.step; rw [if_neg hd]
  show (match f s.begun with
    | (s, .ok true) => _
    | (s, .ok false) => _
    | (s, .err) => _
    | (s, .ub) => _) = _
  rw [h]; rfl

theorem step_false {E : OptEnv} {s t : Opt} {f : Opt → Opt × Res Bool} (hd : s.vis.info.dim ≠ 0) (h : f s.begun = (t, .ok false)) :
    s.step E f = t.testStop E := by
  unfold Opt.step; rw [if_neg hd]
  show (match f s.begun with
    | (s, .ok true) => _
    | (s, .ok false) => _
    | (s, .err) => _
    | (s, .ub) => _) = _
  rw [h]

theorem step_core (E : OptEnv) (s : Opt) (i : In) (hd : s.vis.info.dim ≠ 0) (hv : i.Valid s.vis.info)
    (hl : s.vis.bestPoint.length = s.vis.info.dim) :
    (s.step E (Opt.internal E i)).1.vis.core = (s.vis.stepped E i).core := by
  unfold Vis.stepped
  by_cases hf : i.Failed s.vis.maxErrors
  · rw [if_pos hf, step_false hd (internal_failed E s.begun i (by rw [begun_vis]; exact hf)), testStop_core]
    dsimp only
    rw [ite_interrupt_vis]
    simp [signal_vis, begun_vis]
  · rw [if_neg hf, step_true hd (internal_completed E s.begun i (by rw [begun_vis]; exact hv) (by rw [begun_vis]; exact hl)
      (by rw [begun_vis]; exact hf)), testStop_core]
    simp only [Opt.ended, signal_vis, ite_interrupt_vis, begun_vis]
    have ht : ∀ v : Vis, (v.track E).stepCount = v.stepCount := fun v => by unfold Vis.track; split <;> rfl
    cases i.interrupt
    · simp only [Vis.withInterrupt, Bool.false_eq_true, if_false, ht]; rfl
    · simp only [Vis.withInterrupt, if_true, ht]; rfl

end Spot

namespace Spot

theorem after_append (E : OptEnv) (s : Opt) (h h' : List Op) : s.after E (h ++ h') = (s.after E h).after E h' := by
  simp [Opt.after, List.foldl_append]

/-- Effect of a call on the visible state, up to the trend cache. -/
def Op.onVis (E : OptEnv) (v : Vis) : Op → Vis
  | .step i => v.stepped E i
  | .interrupt => { v with stopRequested := true }
  | .addCond c => if c.minWindow > v.capacity then v.setWindow c.minWindow else v
  | .window n => v.setWindow n
  | _ => v

structure Vis.WF (info : ObjInfo) (m : Int) (v : Vis) : Prop where
  info_eq : v.info = info
  maxErr : v.maxErrors = m
  len : v.bestPoint.length = info.dim

theorem apply_core (E : OptEnv) (s : Opt) (o : Op) {info : ObjInfo} {m : Int} (hd : info.dim ≠ 0) (hw : s.vis.WF info m)
    (ho : o.Valid info) : (o.apply E s).vis.core = (o.onVis E s.vis).core := by
  cases o with
  | step i =>
    obtain ⟨h1, h2, h3⟩ := hw; subst h1
    exact step_core E s i hd ho h3
  | trend => exact fitnessTrend_core E s.vis
  | progress => exact progress_core E s.vis
  | predicted k => exact predicted_core E s.vis k
  | test => exact testStop_core E s
  | _ => rfl

theorem WF_core {info : ObjInfo} {m : Int} {v w : Vis} (h : v.core = w.core) (hw : w.WF info m) : v.WF info m := by
  obtain ⟨h1, h2, h3, h4, h5, h6, h7, h8, h9, h10, h11, h12⟩ := core_ext h
  exact ⟨h1.trans hw.info_eq, h12.trans hw.maxErr, by rw [h4]; exact hw.len⟩

theorem setWindow_WF {info : ObjInfo} {m : Int} {v : Vis} (n : Nat) (hw : v.WF info m) : (v.setWindow n).WF info m :=
  ⟨hw.info_eq, hw.maxErr, hw.len⟩

theorem stepped_WF (E : OptEnv) {info : ObjInfo} {m : Int} {v : Vis} {i : In} (hw : v.WF info m) (hi : i.Valid info) :
    (v.stepped E i).WF info m := by
  obtain ⟨h1, h2, h3⟩ := hw
  have hb := (In.bestPt_get hi).2.2
  subst h1
  unfold Vis.stepped
  split
  · cases i.interrupt <;> exact ⟨rfl, h2, h3⟩
  · have : ∀ v : Vis, (v.track E).info = v.info ∧ (v.track E).maxErrors = v.maxErrors ∧ (v.track E).bestPoint = v.bestPoint := by
      intro v; unfold Vis.track; split <;> exact ⟨rfl, rfl, rfl⟩
    have hb' : (v.evaluated (i.res.map (fitOf v.info)) (i.best v.info) (i.bestPt v.info)).bestPoint.length = v.info.dim := by
      simp only [Vis.evaluated]; split
      · simpa using hb
      · exact h3
    obtain ⟨t1, t2, t3⟩ := this (v.evaluated (i.res.map (fitOf v.info)) (i.best v.info) (i.bestPt v.info))
    cases i.interrupt <;> simp only [Vis.withInterrupt, Bool.false_eq_true, if_false, if_true] <;>
      exact ⟨t1, t2.trans h2, by simpa only [t3] using hb'⟩

theorem onVis_WF (E : OptEnv) {info : ObjInfo} {m : Int} {v : Vis} {o : Op} (hw : v.WF info m) (ho : o.Valid info) :
    (o.onVis E v).WF info m := by
  cases o with
  | step i => exact stepped_WF E hw ho
  | interrupt => exact ⟨hw.info_eq, hw.maxErr, hw.len⟩
  | addCond c => simp only [Op.onVis]; split
                 · exact setWindow_WF _ hw
                 · exact hw
  | window n => exact setWindow_WF _ hw
  | _ => exact hw

theorem new_WF (info : ObjInfo) (m : Int) : (Opt.new info m).vis.WF info m := by
  refine ⟨?_, rfl, ?_⟩
  · simp [Opt.new, Opt.init, Opt.addCond, Cond.minWindow]
  · simp [Opt.new, Opt.init, Opt.addCond, Cond.minWindow, SearchPoint.ofInfo, ObjInfo.dim]

/-- Histories: induction at the end, with the basic facts. -/
theorem history_induction {E : OptEnv} {info : ObjInfo} {m : Int} (hd : info.dim ≠ 0) {s0 : Opt} (h0 : s0.vis.WF info m)
    (P : List Op → Opt → Prop) (hnil : P [] s0)
    (hstep : ∀ (h : List Op) (s : Opt) (o : Op), s.vis.WF info m → o.Valid info → P h s → P (h ++ [o]) (o.apply E s)) :
    ∀ (h : List Op), (∀ o ∈ h, o.Valid info) → (s0.after E h).vis.WF info m ∧ P h (s0.after E h) := by
  intro h
  induction h using List.reverseRecOn with
  | nil => exact fun _ => ⟨h0, hnil⟩
  | append_singleton h o ih =>
    intro hv
    obtain ⟨hw, hp⟩ := ih (fun o ho => hv o (by simp [ho]))
    have ho := hv o (by simp)
    rw [after_append]
    exact ⟨WF_core (apply_core E _ o hd hw ho) (onVis_WF E hw ho), hstep h _ o hw ho hp⟩

theorem evalsOf_append (info : ObjInfo) (m : Int) (h : List Op) (o : Op) :
    evalsOf info m (h ++ [o]) = evalsOf info m h ++ o.evals info m := by
  simp [evalsOf]

/-- `is_better` on numbers. -/
theorem better_of_not_of {info : ObjInfo} {a b c : Dbl} (ha : a ≠ .nan) (hb : b ≠ .nan) (hc : c ≠ .nan)
    (h : info.isBetter a b = true) (h' : info.isBetter c b = false) : info.isBetter a c = true := by
  unfold ObjInfo.isBetter at *
  cases hm : info.minimize <;> simp only [hm, if_true, if_false, Bool.false_eq_true] at *
  · exact Dbl.lt_of_le_of_lt ((Dbl.not_lt hb hc).1 h') h
  · exact Dbl.lt_of_lt_of_le h ((Dbl.not_lt hc hb).1 h')

theorem not_better_trans {info : ObjInfo} {a b c : Dbl} (ha : a ≠ .nan) (hb : b ≠ .nan) (hc : c ≠ .nan)
    (h : info.isBetter a b = false) (h' : info.isBetter b c = false) : info.isBetter a c = false := by
  unfold ObjInfo.isBetter at *
  cases hm : info.minimize <;> simp only [hm, if_true, if_false, Bool.false_eq_true] at *
  · exact lt_negtrans hc hb ha h' h
  · exact lt_negtrans ha hb hc h h'

theorem worst_ne_nan (info : ObjInfo) : info.worstFitness ≠ .nan := by unfold ObjInfo.worstFitness; split <;> simp

/-- The evaluations of a completed step around its first best point. -/
theorem evals_split {info : ObjInfo} {i : In} (hv : i.Valid info) (hn : ∀ f, some f ∈ i.res → f ≠ .nan) :
    ∃ pre post, i.pop.zip (i.res.map (fitOf info)) = pre ++ (i.bestPt info, i.best info) :: post ∧
      (∀ e ∈ pre, info.isBetter (i.best info) e.2 = true) ∧
      (∀ e ∈ pre ++ (i.bestPt info, i.best info) :: post, info.isBetter e.2 (i.best info) = false ∧ e.2 ≠ .nan) := by
  obtain ⟨h1, h2, h3⟩ := In.bestPt_get hv
  set fs := i.res.map (fitOf info) with hfs
  set b := info.findBestFitness fs with hb
  have hz : (i.pop.zip fs)[b]? = some (i.bestPt info, i.best info) := by
    rw [List.getElem?_zip_eq_some]; exact ⟨h1, h2⟩
  have hlt := (List.getElem?_eq_some_iff.1 hz).1
  have hsplit : i.pop.zip fs = (i.pop.zip fs).take b ++ (i.bestPt info, i.best info) :: (i.pop.zip fs).drop (b + 1) := by
    conv_lhs => rw [← List.take_append_drop b (i.pop.zip fs), List.drop_eq_getElem_cons hlt]
    rw [(List.getElem?_eq_some_iff.1 hz).2]
  have hnan : ∀ x ∈ fs, x ≠ .nan := by
    intro x hx
    obtain ⟨r, hr, rfl⟩ := List.mem_map.1 hx
    cases r with
    | none => exact worst_ne_nan info
    | some f => exact hn f hr
  obtain ⟨y, hy, hy1, hy2⟩ := C67_find_best info fs (by intro h; rw [h] at h2; simp at h2) hnan
  rw [← hb] at hy hy2
  have hyb : y = i.best info := by rw [h2] at hy; exact (Option.some.inj hy).symm
  subst hyb
  refine ⟨_, _, hsplit, ?_, ?_⟩
  · intro e he
    obtain ⟨k, hk⟩ := List.getElem?_of_mem he
    rw [List.getElem?_take] at hk
    split at hk
    · rename_i hkb
      rw [List.getElem?_zip_eq_some] at hk
      exact hy2 k e.2 hkb hk.2
    · simp at hk
  · rw [← hsplit]
    intro e he
    have : e.2 ∈ fs := (List.of_mem_zip (a := e.1) (b := e.2) he).2
    exact ⟨hy1 _ this, hnan _ this⟩

theorem track_best (E : OptEnv) (v : Vis) : (v.track E).bestFitness = v.bestFitness ∧ (v.track E).bestPoint = v.bestPoint ∧
    (v.track E).curFitness = v.curFitness ∧ (v.track E).curPoint = v.curPoint ∧ (v.track E).curFitnesses = v.curFitnesses ∧
    (v.track E).capacity = v.capacity ∧ (v.track E).stopRequested = v.stopRequested := by
  unfold Vis.track; split <;> simp

/-- The fields after a completed step. -/
theorem stepped_completed (E : OptEnv) {v : Vis} {i : In} (hf : ¬ i.Failed v.maxErrors) :
    (v.stepped E i).bestFitness = (if v.info.isBetter (i.best v.info) v.bestFitness then i.best v.info else v.bestFitness) ∧
    (v.stepped E i).bestPoint = (if v.info.isBetter (i.best v.info) v.bestFitness then (i.bestPt v.info).map rounded else v.bestPoint) ∧
    (v.stepped E i).curFitness = i.best v.info ∧ (v.stepped E i).curPoint = i.bestPt v.info ∧
    (v.stepped E i).curFitnesses = i.res.map (fitOf v.info) ∧ (v.stepped E i).stepCount = v.stepCount + 1 ∧
    (v.stepped E i).capacity = v.capacity ∧ (v.stepped E i).stopRequested = (v.stopRequested || i.interrupt) ∧
    (v.stepped E i).history = (if v.capacity > 0 then
      (if v.history.length = v.capacity then v.history.drop 1 else v.history) ++ [E.toFloat (i.best v.info)] else v.history) ∧
    (v.stepped E i).samples = (if v.capacity > 0 then v.samples + 1 else v.samples) := by
  unfold Vis.stepped; rw [if_neg hf]
  simp only [Vis.track, Vis.evaluated]
  cases i.interrupt <;> by_cases hc : v.capacity > 0 <;> simp [Vis.withInterrupt, hc]

theorem stepped_failed (E : OptEnv) {v : Vis} {i : In} (hf : i.Failed v.maxErrors) :
    v.stepped E i = v.withInterrupt i.interrupt := by unfold Vis.stepped; rw [if_pos hf]

end Spot
