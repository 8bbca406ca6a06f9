import Verif.Props.FileReporter
import Verif.Model.StepThrow
import Verif.Props.Reporters
import Verif.Props.Session

/-!
# C122: an optimizer after steps that ended with an exception
-/

namespace Spot

/-! ## The specification -/

/-- The calls, without the steps that ended with an exception; if the optimizer has been interrupted during one, it was. -/
def Try.made : Try → List Op
  | .call o => [o]
  | .fails _ true => [.interrupt]
  | .fails _ false => []

/-- The callbacks that say something about a result. -/
def Event.Tells : Event → Bool
  | .start => false
  | .preStep => false
  | .preEvaluate _ => false
  | _ => true

/-- Everything but the reporters and the callbacks that tell nothing. -/
def Opt.told (s : Opt) : Opt := { s with reps := [], log := s.log.filter fun e => e.1.Tells }

/-- The populations of the steps that were completed, for the objective `F` (`none`: no result). -/
def Try.completed (F : Pt → Option Dbl) : Try → List (List Pt)
  | .call (.step i) => if i.pop.all fun x => (F x).isSome then [i.pop] else []
  | _ => []

/-- A distribution of MES or EVA is updated for these populations, and not otherwise. -/
inductive Es.Updates [Libm] {R : Rng Dbl} {n : Nat} (c : EsCfg R n) (info : ObjInfo) (F : Pt → Option Dbl) (d0 : Es Dbl n) : List (List Pt) → Es Dbl n → Prop
  | nil : Es.Updates c info F d0 [] d0
  | snoc {ps pop d d' order} (h : Es.Updates c info F d0 ps d) (ho : SortedOrder info (pop.map fun x => (F x).getD info.worstFitness) order)
      (hu : updateDistribution c.alg c.eps c.mu d order (pop.map (vecOf n)) = .ok d') : Es.Updates c info F d0 (ps ++ [pop]) d'

/-- The calls of `sample_population` and `update_distribution` of a CMA optimizer and what they return. -/
def Try.cma (n : Nat) (tr : (Fin n → Dbl) → Fin n → Dbl) (info : ObjInfo) (F : Pt → Option Dbl) : Try → List (CmaCall Dbl n × Res Unit)
  | .call (.step i) => (.sample tr, .ok ()) :: if i.pop.all fun x => (F x).isSome then [(.update (i.pop.map fun x => (F x).getD info.worstFitness), .ok ())] else []
  | .call _ => []
  | .fails _ _ => [(.sample tr, .ok ())]

/-! ## Lemmas -/

theorem told_iff {s t : Opt} : s.told = t.told ↔ s.vis = t.vis ∧ s.conds = t.conds ∧ s.stopped = t.stopped ∧ (s.log.filter fun e => e.1.Tells) = t.log.filter fun e => e.1.Tells := by
  obtain ⟨v, c, st, r, l⟩ := s; obtain ⟨v', c', st', r', l'⟩ := t
  simp [Opt.told]

theorem told_signal {s t : Opt} (h : s.told = t.told) (e : Event) : (s.signal e).told = (t.signal e).told := by
  rw [told_iff] at h ⊢
  obtain ⟨h1, h2, h3, h4⟩ := h
  unfold Opt.signal
  exact ⟨h1, h2, h3, by simp only [List.filter_append, h4, h1]⟩

theorem told_quiet (s : Opt) {e : Event} (he : e.Tells = false) : (s.signal e).told = s.told := by
  rw [told_iff]
  unfold Opt.signal
  exact ⟨rfl, rfl, rfl, by simp [List.filter_append, he]⟩

theorem told_with {s t : Opt} (h : s.told = t.told) (v : Vis) (c : List Cond) (st : Option Nat) :
    ({ s with vis := v, conds := c, stopped := st } : Opt).told = ({ t with vis := v, conds := c, stopped := st } : Opt).told := by
  rw [told_iff] at h ⊢
  exact ⟨rfl, rfl, rfl, h.2.2.2⟩

theorem told_testStop (E : OptEnv) {s t : Opt} (h : s.told = t.told) : (s.testStop E).1.told = (t.testStop E).1.told ∧ (s.testStop E).2 = (t.testStop E).2 := by
  obtain ⟨h1, h2, h3, -⟩ := told_iff.1 h
  unfold Opt.testStop
  rw [← h1, ← h2, ← h3]
  cases hs : s.stopped with
  | some k => exact ⟨h, rfl⟩
  | none =>
    dsimp only
    rcases testLoop E 0 s.conds s.vis with ⟨v, r⟩
    have hw := told_with h v s.conds none
    rcases r with (_ | k) | _ | _
    · exact ⟨by simpa only [hs, h2, ← h3] using hw, rfl⟩
    · refine ⟨told_signal ?_ _, rfl⟩
      have := told_with h v s.conds (some k)
      simpa only [h2] using this
    · exact ⟨by simpa only [hs, h2, ← h3] using hw, rfl⟩
    · exact ⟨by simpa only [hs, h2, ← h3] using hw, rfl⟩

theorem told_vis {s t : Opt} (h : s.told = t.told) {v w : Vis} (hv : v = w) : ({ s with vis := v } : Opt).told = ({ t with vis := w } : Opt).told := by
  subst hv
  obtain ⟨-, h2, h3, h4⟩ := told_iff.1 h
  exact told_iff.2 ⟨rfl, h2, h3, h4⟩

theorem told_interrupt {s t : Opt} (h : s.told = t.told) : s.interrupt.told = t.interrupt.told := told_vis h (by rw [(told_iff.1 h).1])

theorem told_evaluateStep (E : OptEnv) (pop : List Pt) (res : List (Option Dbl)) {s t : Opt} (h : s.told = t.told) :
    (s.evaluateStep E pop res).1.told = (t.evaluateStep E pop res).1.told ∧ (s.evaluateStep E pop res).2 = (t.evaluateStep E pop res).2 := by
  unfold Opt.evaluateStep
  have hs := told_signal h (.preEvaluate pop)
  generalize s.signal (.preEvaluate pop) = s at hs ⊢
  generalize t.signal (.preEvaluate pop) = t at hs ⊢
  clear h
  obtain ⟨h1, h2, h3, h4⟩ := told_iff.1 hs
  dsimp only
  rw [← h1]
  by_cases hE : (errorCount res : Int) > allowedErrors s.vis.maxErrors res.length
  · simp only [hE, if_true]
    exact ⟨told_iff.2 ⟨rfl, by simp only [h2], h3, h4⟩, trivial⟩
  · simp only [hE, if_false]
    generalize List.map (fun r : Option Dbl => r.getD s.vis.info.worstFitness) res = fs
    cases hf : fs[s.vis.info.findBestFitness fs]? with
    | none => exact ⟨hs, rfl⟩
    | some f =>
      cases hp : pop[s.vis.info.findBestFitness fs]? with
      | none => exact ⟨hs, rfl⟩
      | some p =>
        dsimp only
        by_cases hb : s.vis.info.isBetter f s.vis.bestFitness = true
        · by_cases hl : s.vis.bestPoint.length = p.length
          · simp only [hb, hl, if_true]
            refine ⟨told_signal (told_vis (told_signal (told_vis hs rfl) _) rfl) _, trivial⟩
          · simp only [hb, hl, if_true, if_false]
            exact ⟨told_vis hs rfl, trivial⟩
        · simp only [hb]
          exact ⟨told_signal (told_vis (told_vis hs rfl) rfl) _, rfl⟩

theorem told_internal (E : OptEnv) (i : In) {s t : Opt} (h : s.told = t.told) :
    (Opt.internal E i s).1.told = (Opt.internal E i t).1.told ∧ (Opt.internal E i s).2 = (Opt.internal E i t).2 := by
  unfold Opt.internal
  obtain ⟨h1, h2⟩ := told_evaluateStep E i.pop i.res h
  cases hs : s.evaluateStep E i.pop i.res with | mk s' r =>
  cases ht : t.evaluateStep E i.pop i.res with | mk t' r' =>
  rw [hs, ht] at h1 h2
  dsimp only
  refine ⟨?_, h2⟩
  cases i.interrupt
  · exact h1
  · exact told_interrupt h1

theorem told_opening (s : Opt) : s.opening.told = s.told := by
  unfold Opt.opening
  rw [told_quiet _ rfl]
  split
  · exact told_quiet _ rfl
  · rfl

theorem told_opened (s : Opt) (pop : Option (List Pt)) : (s.opened pop).told = s.told := by
  unfold Opt.opened
  split
  · rfl
  · cases pop with
    | none => exact told_opening s
    | some pop => exact (told_quiet _ rfl).trans (told_opening s)

theorem told_step (E : OptEnv) (i : In) {s t : Opt} (h : s.told = t.told) :
    (s.step E (Opt.internal E i)).1.told = (t.step E (Opt.internal E i)).1.told ∧ (s.step E (Opt.internal E i)).2 = (t.step E (Opt.internal E i)).2 := by
  have hv : s.vis = t.vis := (told_iff.1 h).1
  by_cases hd : s.vis.info.dim = 0
  · have hd' : t.vis.info.dim = 0 := by rw [← hv]; exact hd
    unfold Opt.step; rw [if_pos hd, if_pos hd']; exact ⟨h, rfl⟩
  · have hd' : ¬ t.vis.info.dim = 0 := by rw [← hv]; exact hd
    have e1 : ∀ u : Opt, ¬ u.vis.info.dim = 0 → u.step E (Opt.internal E i) =
        (match Opt.internal E i u.opening with
          | (s, .ok true) => s.ended.testStop E
          | (s, .ok false) => s.testStop E
          | (s, .err) => (s, .err)
          | (s, .ub) => (s, .ub)) := by
      intro u hu; unfold Opt.step; rw [if_neg hu]; rfl
    have hi := told_internal E i (s := s.opening) (t := t.opening) (by rw [told_opening, told_opening, h])
    rw [e1 s hd, e1 t hd']
    cases hs : Opt.internal E i s.opening with | mk s' r =>
    cases ht : Opt.internal E i t.opening with | mk t' r' =>
    rw [hs, ht] at hi
    obtain ⟨hi1, hi2⟩ := hi
    simp only at hi1 hi2
    subst hi2
    rcases r with (_ | _) | _ | _
    · exact told_testStop E hi1
    · exact told_testStop E (told_vis (told_signal hi1 _) (by rw [(told_iff.1 hi1).1]))
    · exact ⟨hi1, rfl⟩
    · exact ⟨hi1, rfl⟩

theorem told_apply (E : OptEnv) (o : Op) {s t : Opt} (h : s.told = t.told) : (o.apply E s).told = (o.apply E t).told := by
  have hv := (told_iff.1 h).1
  cases o with
  | step i => exact (told_step E i h).1
  | test => exact (told_testStop E h).1
  | interrupt => exact told_interrupt h
  | addRep r =>
    obtain ⟨h1, h2, h3, h4⟩ := told_iff.1 h
    exact told_iff.2 ⟨h1, h2, h3, h4⟩
  | addCond c =>
    obtain ⟨h1, h2, h3, h4⟩ := told_iff.1 h
    refine told_iff.2 ⟨?_, ?_, h3, h4⟩
    · show (if c.minWindow > s.vis.capacity then s.vis.setWindow c.minWindow else s.vis) = _
      rw [h1]; rfl
    · show s.conds ++ [c] = t.conds ++ [c]
      rw [h2]
  | window n => exact told_vis h (by rw [hv])
  | trend => exact told_vis h (by rw [hv])
  | progress => exact told_vis h (by rw [hv])
  | predicted k => exact told_vis h (by rw [hv])

theorem told_after (E : OptEnv) : ∀ (l : List Op) {s t : Opt}, s.told = t.told → (s.after E l).told = (t.after E l).told
  | [], _, _, h => h
  | o :: l, _, _, h => told_after E l (told_apply E o h)

theorem told_tried (E : OptEnv) : ∀ (l : List Try) {s t : Opt}, s.told = t.told → (s.tried E l).told = (t.after E (l.flatMap Try.made)).told
  | [], _, _, h => h
  | .call o :: l, _, _, h => told_tried E l (told_apply E o h)
  | .fails pop true :: l, s, t, h => told_tried E l (s := (s.opened pop).interrupt) (t := t.interrupt) (told_interrupt ((told_opened s pop).trans h))
  | .fails pop false :: l, s, t, h => told_tried E l (s := s.opened pop) (t := t) ((told_opened s pop).trans h)


/-! ## The theorems -/

/-- **C122.** After any calls of an optimizer, of which some steps ended with an exception, everything it shows - best fitness and point, those of the last step, step count, fitness history, stop
conditions and which of them was met - and the callbacks that tell results, with what the optimizer showed when they were sent, are as if those steps had not been made (an interrupt during one counts). -/
theorem C122_state (E : OptEnv) (info : ObjInfo) (m : Int) (h : List Try) :
    let s := (Opt.new info m).tried E h
    let t := (Opt.new info m).after E (h.flatMap Try.made)
    s.vis = t.vis ∧ s.conds = t.conds ∧ s.stopped = t.stopped ∧ (s.log.filter fun e => e.1.Tells) = t.log.filter fun e => e.1.Tells :=
  told_iff.1 (told_tried E h rfl)

/-- **C122.** What the next `step` and `test_stop_conditions` return is as if those steps had not been made. -/
theorem C122_results (E : OptEnv) (info : ObjInfo) (m : Int) (h : List Try) (i : In) :
    (((Opt.new info m).tried E h).step E (Opt.internal E i)).2 = (((Opt.new info m).after E (h.flatMap Try.made)).step E (Opt.internal E i)).2 ∧
    (((Opt.new info m).tried E h).testStop E).2 = (((Opt.new info m).after E (h.flatMap Try.made)).testStop E).2 :=
  ⟨(told_step E i (told_tried E h rfl)).2, (told_testStop E (told_tried E h rfl)).2⟩

/-- **C122.** The same for `run`, as long as what the algorithm and the evaluator do in it depends on what is not reset only. -/
theorem C122_run (E : OptEnv) (info : ObjInfo) (m : Int) (h : List Try) (env : Opt → In) (henv : ∀ s t : Opt, s.vis = t.vis → env s = env t) (n : Nat) :
    let s := ((Opt.new info m).tried E h).run E env n
    let t := ((Opt.new info m).after E (h.flatMap Try.made)).run E env n
    s.1.vis = t.1.vis ∧ s.1.stopped = t.1.stopped ∧ s.2 = t.2 := by
  have loop : ∀ (n : Nat) {s t : Opt}, s.told = t.told → (s.runLoop E env n).1.told = (t.runLoop E env n).1.told ∧ (s.runLoop E env n).2 = (t.runLoop E env n).2 := by
    intro n
    induction n with
    | zero => intro s t h; exact ⟨h, rfl⟩
    | succ n ih =>
      intro s t h
      have he := henv s t (told_iff.1 h).1
      obtain ⟨h1, h2⟩ := told_step E (env s) h
      unfold Opt.runLoop
      rw [← he]
      cases hs : s.step E (Opt.internal E (env s)) with | mk s' r =>
      cases ht : t.step E (Opt.internal E (env s)) with | mk t' r' =>
      rw [hs, ht] at h1 h2
      simp only at h1 h2
      subst h2
      rcases r with (_ | _) | _ | _
      · exact ih h1
      · exact ⟨h1, rfl⟩
      · exact ⟨h1, rfl⟩
      · exact ⟨h1, rfl⟩
  have h0 := told_tried E h (s := Opt.new info m) (t := Opt.new info m) rfl
  have hv := (told_iff.1 h0).1
  intro s t
  by_cases hd : ((Opt.new info m).tried E h).vis.info.dim = 0
  · have hs : s = ((Opt.new info m).tried E h, .err) := if_pos hd
    have ht : t = ((Opt.new info m).after E (h.flatMap Try.made), .err) := if_pos (by rw [← hv]; exact hd)
    rw [hs, ht]
    exact ⟨hv, (told_iff.1 h0).2.2.1, rfl⟩
  · have hs : s = ((Opt.new info m).tried E h).runLoop E env (if n = 0 then 2 ^ 64 - 1 else n) := if_neg hd
    have ht : t = ((Opt.new info m).after E (h.flatMap Try.made)).runLoop E env (if n = 0 then 2 ^ 64 - 1 else n) := if_neg (by rw [← hv]; exact hd)
    rw [hs, ht]
    obtain ⟨h1, h2⟩ := loop (if n = 0 then 2 ^ 64 - 1 else n) h0
    exact ⟨(told_iff.1 h1).1, (told_iff.1 h1).2.2.1, h2⟩

/-- **C122.** What a step that ends with an exception does: it sends `on_start` if no step has been completed yet, `on_pre_step`, and, if it gets there, `on_pre_evaluate_population`. -/
theorem C122_callbacks (E : OptEnv) (s : Opt) (pop : Option (List Pt)) (intr : Bool) (hd : s.vis.info.dim ≠ 0) :
    let t := (Try.fails pop intr).apply E s
    t.vis = { s.vis with stopRequested := intr || s.vis.stopRequested } ∧ t.conds = s.conds ∧ t.stopped = s.stopped ∧
    t.log = s.log ++ (if s.vis.stepCount = 0 then [(.start, s.vis)] else []) ++ [(.preStep, s.vis)] ++ pop.elim [] fun pop => [(.preEvaluate pop, s.vis)] := by
  intro t
  have ht : t = if intr then (s.opened pop).interrupt else s.opened pop := rfl
  rw [ht]
  unfold Opt.opened
  rw [if_neg hd]
  obtain ⟨v, c, st, r, l⟩ := s
  obtain ⟨_, n, _⟩ := v
  cases pop <;> cases intr <;> by_cases h0 : n = 0 <;> simp [Opt.opening, Opt.signal, Opt.interrupt, h0]

/-- **C122.** These are the exceptions of the members of a pool in C121. -/
theorem C122_members (E : OptEnv) (i : In) (m x : Opt) (h : x ∈ m.stages i) : ∃ pop, x = (Try.fails pop false).apply E m := by
  unfold Opt.stages at h
  by_cases hd : m.vis.info.dim = 0
  · rw [if_pos hd, List.mem_singleton] at h
    exact ⟨none, by show x = m.opened none; unfold Opt.opened; rw [if_pos hd]; exact h⟩
  · rw [if_neg hd] at h
    simp only [List.mem_cons, List.not_mem_nil, or_false] at h
    rcases h with h | h
    · exact ⟨none, by show x = m.opened none; unfold Opt.opened; rw [if_neg hd]; exact h⟩
    · exact ⟨some i.pop, by show x = m.opened (some i.pop); unfold Opt.opened; rw [if_neg hd]; exact h⟩

/-- What is in the log: `on_start` is not sent after a step has been completed. -/
def Ordered (s : Opt) : Prop :=
  (s.vis.stepCount = 0 → ∀ e ∈ s.log, e.1 ≠ .postStep) ∧ ∀ pre v post, s.log = pre ++ (.postStep, v) :: post → ∀ e ∈ post, e.1 ≠ .start

theorem ordered_snoc {l : List (Event × Vis)} {e : Event × Vis} (h : ∀ pre v post, l = pre ++ (.postStep, v) :: post → ∀ e ∈ post, e.1 ≠ Event.start)
    (he : e.1 ≠ .start ∨ ∀ e ∈ l, e.1 ≠ .postStep) : ∀ pre v post, l ++ [e] = pre ++ (.postStep, v) :: post → ∀ e ∈ post, e.1 ≠ Event.start := by
  intro pre v post hl x hx
  rcases List.eq_nil_or_concat post with rfl | ⟨post', z, rfl⟩
  · simp at hx
  · rw [List.concat_eq_append] at hl hx
    rw [← List.cons_append, ← List.append_assoc] at hl
    obtain ⟨h1, h2⟩ := List.append_inj' hl rfl
    cases h2
    rcases List.mem_append.1 hx with hx | hx
    · exact h _ _ _ h1 x hx
    · rw [List.mem_singleton] at hx
      subst hx
      rcases he with he | he
      · exact he
      · exact absurd rfl (he (.postStep, v) (by rw [h1]; simp))

theorem ordered_signal {s : Opt} (h : Ordered s) {e : Event} (h1 : e ≠ .start ∨ s.vis.stepCount = 0) (h2 : e ≠ .postStep) : Ordered (s.signal e) := by
  refine ⟨fun h0 x hx => ?_, ordered_snoc h.2 (h1.imp id fun h0 => h.1 h0)⟩
  rcases List.mem_append.1 hx with hx | hx
  · exact h.1 h0 x hx
  · rw [List.mem_singleton] at hx; subst hx; exact h2

theorem ordered_congr {s t : Opt} (h : Ordered s) (h1 : t.log = s.log) (h2 : t.vis.stepCount = s.vis.stepCount) : Ordered t := by
  unfold Ordered at h ⊢; rw [h1, h2]; exact h

theorem ordered_evaluateStep (E : OptEnv) (pop : List Pt) (res : List (Option Dbl)) {s : Opt} (h : Ordered s) : Ordered (s.evaluateStep E pop res).1 := by
  have hs := ordered_signal h (e := .preEvaluate pop) (.inl (by simp)) (by simp)
  unfold Opt.evaluateStep
  generalize s.signal (.preEvaluate pop) = s at hs ⊢
  dsimp only
  by_cases hE : (errorCount res : Int) > allowedErrors s.vis.maxErrors res.length
  · simp only [hE, if_true]; exact ordered_congr hs rfl rfl
  · simp only [hE, if_false]
    generalize List.map (fun r : Option Dbl => r.getD s.vis.info.worstFitness) res = fs
    cases hf : fs[s.vis.info.findBestFitness fs]? with
    | none => exact hs
    | some f =>
      cases hp : pop[s.vis.info.findBestFitness fs]? with
      | none => exact hs
      | some p =>
        have htr : ∀ v : Vis, (v.track E).stepCount = v.stepCount := by intro v; unfold Vis.track; split <;> rfl
        dsimp only
        by_cases hb : s.vis.info.isBetter f s.vis.bestFitness = true
        · by_cases hl : s.vis.bestPoint.length = p.length
          · simp only [hb, hl, if_true]
            have h1 : Ordered { s with vis := { s.vis with curFitnesses := fs, curFitness := f, curPoint := p, bestFitness := f, bestPoint := p.map rounded } } := ordered_congr hs rfl rfl
            have h2 := ordered_signal h1 (e := .newBest (p.map rounded) f) (.inl (by simp)) (by simp)
            refine ordered_signal (ordered_congr h2 ?_ ?_) (.inl (by simp)) (by simp)
            · rfl
            · exact htr _
          · simp only [hb, hl, if_true, if_false]
            exact ordered_congr hs rfl rfl
        · simp only [hb]
          refine ordered_signal (ordered_congr hs ?_ ?_) (.inl (by simp)) (by simp)
          · rfl
          · exact htr _

theorem ordered_testStop (E : OptEnv) {s : Opt} (h : Ordered s) : Ordered (s.testStop E).1 := by
  unfold Opt.testStop
  cases hs : s.stopped with
  | some k => exact h
  | none =>
    dsimp only
    have hc := testLoop_core E s.conds 0 s.vis
    generalize testLoop E 0 s.conds s.vis = x at hc
    rcases x with ⟨v, (_ | k) | _ | _⟩
    · exact ordered_congr h rfl (core_ext hc).2.1
    · exact ordered_signal (ordered_congr h (t := { s with vis := v, stopped := some k }) rfl (core_ext hc).2.1) (.inl (by simp)) (by simp)
    · exact ordered_congr h rfl (core_ext hc).2.1
    · exact ordered_congr h rfl (core_ext hc).2.1

theorem ordered_opening {s : Opt} (h : Ordered s) : Ordered s.opening := by
  unfold Opt.opening
  split
  · rename_i h0
    exact ordered_signal (ordered_signal h (.inr h0) (by simp)) (.inl (by simp)) (by simp)
  · exact ordered_signal h (.inl (by simp)) (by simp)

theorem ordered_step (E : OptEnv) (i : In) {s : Opt} (h : Ordered s) : Ordered (s.step E (Opt.internal E i)).1 := by
  by_cases hd : s.vis.info.dim = 0
  · unfold Opt.step; rw [if_pos hd]; exact h
  · have e1 : s.step E (Opt.internal E i) =
        (match Opt.internal E i s.opening with
          | (s, .ok true) => s.ended.testStop E
          | (s, .ok false) => s.testStop E
          | (s, .err) => (s, .err)
          | (s, .ub) => (s, .ub)) := by unfold Opt.step; rw [if_neg hd]; rfl
    have hi : Ordered (Opt.internal E i s.opening).1 := by
      unfold Opt.internal
      have he := ordered_evaluateStep E i.pop i.res (ordered_opening h)
      generalize s.opening.evaluateStep E i.pop i.res = x at he
      obtain ⟨u, r⟩ := x
      dsimp only
      cases i.interrupt
      · exact he
      · exact ordered_congr he rfl rfl
    rw [e1]
    generalize Opt.internal E i s.opening = x at hi
    obtain ⟨u, r⟩ := x
    rcases r with (_ | _) | _ | _
    · exact ordered_testStop E hi
    · exact ordered_testStop E ⟨fun h0 => absurd h0 (Nat.succ_ne_zero _), ordered_snoc hi.2 (.inl (by simp))⟩
    · exact hi
    · exact hi

theorem ordered_tried (E : OptEnv) : ∀ (l : List Try) {s : Opt}, Ordered s → Ordered (s.tried E l)
  | [], _, h => h
  | x :: l, s, h => by
    refine ordered_tried E l (s := x.apply E s) ?_
    cases x with
    | fails pop intr =>
      have ho : Ordered (s.opened pop) := by
        unfold Opt.opened
        split
        · exact h
        · cases pop with
          | none => exact ordered_opening h
          | some pop => exact ordered_signal (ordered_opening h) (.inl (by simp)) (by simp)
      cases intr
      · exact ho
      · exact ordered_congr ho rfl rfl
    | call o =>
      cases o with
      | step i => exact ordered_step E i h
      | test => exact ordered_testStop E h
      | addCond c =>
        refine ordered_congr h rfl ?_
        show (if c.minWindow > s.vis.capacity then s.vis.setWindow c.minWindow else s.vis).stepCount = _
        split <;> rfl
      | interrupt => exact ordered_congr h rfl rfl
      | addRep r => exact ordered_congr h rfl rfl
      | window n => exact ordered_congr h rfl rfl
      | trend => exact ordered_congr h rfl (core_ext (fitnessTrend_core E s.vis)).2.1
      | progress => exact ordered_congr h rfl (core_ext (progress_core E s.vis)).2.1
      | predicted k => exact ordered_congr h rfl (core_ext (predicted_core E s.vis k)).2.1

/-- **C122.** Though `on_start` may be sent several times, it is not sent after `on_post_step` has been: the entries a file_reporter wrote to its history are never lost by starting it again. -/
theorem C122_start (E : OptEnv) (info : ObjInfo) (m : Int) (h : List Try) (pre post : List (Event × Vis)) (v : Vis)
    (hl : ((Opt.new info m).tried E h).log = pre ++ (.postStep, v) :: post) : ∀ e ∈ post, e.1 ≠ .start :=
  (ordered_tried E h (s := Opt.new info m) ⟨fun _ e he => absurd he (by simp [Opt.new, Opt.init, Opt.addCond]), fun pre v post hl => absurd hl (by simp [Opt.new, Opt.init, Opt.addCond])⟩).2
    pre v post hl


/-! ## Par files -/

/-- What the reporter gets with a callback, if `upd` is what `make_updated_objective_info`, `optimizer_state_labels` and `optimizer_state_values` return then. -/
def callOf (upd : Event × Vis → ObjInfo × List Str × List Dbl) (e : Event × Vis) : Call :=
  { event := e.1, vis := e.2, upd := (upd e).1, labels := (upd e).2.1, state := (upd e).2.2 }

/-- All par files and what decides about them; not the history, whose header can be written several times. -/
def FileRep.pars (r : FileRep) : (Str → Option Str) × List (Str × Dbl) × Nat × List (Nat × Str) := (r.files, r.recent, r.lastOutput, r.written)

theorem cleanup_pars (c : FileCfg) {r q : FileRep} (h : r.pars = q.pars) (b : Bool) (name : Str) (best : Dbl) :
    (r.cleanup c b name best >>= fun r => Res.ok r.pars) = (q.cleanup c b name best >>= fun r => Res.ok r.pars) := by
  obtain ⟨f, l, o, hi, w⟩ := r; obtain ⟨f', l', o', hi', w'⟩ := q
  simp only [FileRep.pars, Prod.mk.injEq] at h
  obtain ⟨rfl, rfl, rfl, rfl⟩ := h
  unfold FileRep.cleanup
  dsimp only
  generalize l ++ [(name, best)] = l2
  split
  · split <;> rfl
  · split <;> rfl

theorem bind_pars {a b : Res FileRep} (h : (a >>= fun r => Res.ok r.pars) = (b >>= fun r => Res.ok r.pars)) {f g : FileRep → Res FileRep}
    (hfg : ∀ r q : FileRep, r.pars = q.pars → (f r >>= fun r => Res.ok r.pars) = (g q >>= fun r => Res.ok r.pars)) :
    ((a >>= f) >>= fun r => Res.ok r.pars) = ((b >>= g) >>= fun r => Res.ok r.pars) := by
  cases a with
  | ok r =>
    cases b with
    | ok q => exact hfg r q (Res.ok.inj h)
    | err => cases h
    | ub => cases h
  | err =>
    cases b with
    | ok q => cases h
    | err => rfl
    | ub => cases h
  | ub =>
    cases b with
    | ok q => cases h
    | err => cases h
    | ub => rfl

theorem write_pars (c : FileCfg) (x : Call) (b : Bool) {r q : FileRep} (h : r.pars = q.pars) :
    (r.write c x b >>= fun r => Res.ok r.pars) = (q.write c x b >>= fun r => Res.ok r.pars) := by
  unfold FileRep.write
  cases SearchPoint.ofValues x.upd x.vis.curPoint with
  | err => rfl
  | ub => rfl
  | ok sp =>
    simp only [Res.ok_bind]
    obtain ⟨f, l, o, hi, w⟩ := r; obtain ⟨f', l', o', hi', w'⟩ := q
    simp only [FileRep.pars, Prod.mk.injEq] at h
    obtain ⟨rfl, rfl, rfl, rfl⟩ := h
    refine bind_pars ?_ fun r q h => ?_
    · cases b
      · rfl
      · rw [if_pos rfl, if_pos rfl]
        exact cleanup_pars c (by rfl) _ _ _
    · simp only [FileRep.pars, Prod.mk.injEq] at h
      obtain ⟨h1, h2, -, h4⟩ := h
      simp only [Res.ok_bind, FileRep.pars, h1, h2, h4]

theorem on_pars (c : FileCfg) (E : OptEnv) (x : Call) {r q : FileRep} (h : r.pars = q.pars) :
    (r.on c E x >>= fun r => Res.ok r.pars) = (q.on c E x >>= fun r => Res.ok r.pars) := by
  have hl : r.lastOutput = q.lastOutput := congrArg (·.2.2.1) h
  unfold FileRep.on
  rcases x.event with _ | _ | pop | ⟨p, f⟩ | ⟨pop, fs, nb⟩ | _ | k
  · dsimp only; split <;> simpa [Res.ok_bind, FileRep.pars] using h
  · simpa [Res.ok_bind, FileRep.pars] using h
  · dsimp only
    have hf : r.files = q.files := congrArg (·.1) h
    split
    · simp only [FileRep.pars, Prod.mk.injEq] at h
      simp [Res.ok_bind, FileRep.pars, hf, h]
    · simpa [Res.ok_bind, FileRep.pars] using h
  · exact write_pars c x true h
  · dsimp only
    rw [hl]
    split
    · exact write_pars c x false h
    · simpa [Res.ok_bind, FileRep.pars] using h
  · dsimp only; split <;> simpa [Res.ok_bind, FileRep.pars] using h
  · simpa [Res.ok_bind, FileRep.pars] using h

theorem quiet_pars (c : FileCfg) (hc : c.individuals = false) (E : OptEnv) (x : Call) (hx : x.event.Tells = false) (r : FileRep) : ∃ q, r.on c E x = .ok q ∧ q.pars = r.pars := by
  unfold FileRep.on
  generalize he : x.event = e at hx
  rcases e with _ | _ | pop | ⟨p, f⟩ | ⟨pop, fs, nb⟩ | _ | k
  · exact ⟨_, rfl, by split <;> rfl⟩
  · exact ⟨_, rfl, rfl⟩
  · exact ⟨_, rfl, by rw [hc]; rfl⟩
  · cases hx
  · cases hx
  · cases hx
  · cases hx

theorem run_pars (c : FileCfg) (hc : c.individuals = false) (E : OptEnv) : ∀ (xs : List Call) {r q : FileRep}, r.pars = q.pars →
    (FileRep.run c E r xs >>= fun r => Res.ok r.pars) = (FileRep.run c E q (xs.filter fun x => x.event.Tells) >>= fun r => Res.ok r.pars)
  | [], _, _, h => congrArg Res.ok h
  | x :: xs, r, q, h => by
    cases hx : x.event.Tells with
    | true =>
      rw [List.filter_cons_of_pos (p := fun x : Call => x.event.Tells) hx]
      exact bind_pars (on_pars c E x h) fun r q h => run_pars c hc E xs h
    | false =>
      rw [List.filter_cons_of_neg (p := fun x : Call => x.event.Tells) (by simp [hx])]
      obtain ⟨r', e, h'⟩ := quiet_pars c hc E x hx r
      show ((r.on c E x >>= fun r => FileRep.run c E r xs) >>= _) = _
      rw [e, Res.ok_bind]
      exact run_pars c hc E xs (h'.trans h)

/-- **C122.** The par files that a file_reporter has written (other than those of individuals), which files it may remove next and when it writes the next one are as if the steps that threw had not been made. -/
theorem C122_par_files (c : FileCfg) (hc : c.individuals = false) (E : OptEnv) (info : ObjInfo) (m : Int) (h : List Try) (upd : Event × Vis → ObjInfo × List Str × List Dbl) (r : FileRep) :
    (FileRep.run c E r (((Opt.new info m).tried E h).log.map (callOf upd)) >>= fun r => Res.ok r.pars) =
    (FileRep.run c E r (((Opt.new info m).after E (h.flatMap Try.made)).log.map (callOf upd)) >>= fun r => Res.ok r.pars) := by
  rw [run_pars c hc E _ (rfl : r.pars = r.pars), run_pars c hc E (List.map _ (Opt.log (Opt.after _ _ _))) (rfl : r.pars = r.pars)]
  have hm : ∀ l : List (Event × Vis), (l.map (callOf upd)).filter (fun x => x.event.Tells) = (l.filter fun e => e.1.Tells).map (callOf upd) := by
    intro l; rw [List.filter_map]; rfl
  rw [hm, hm, (C122_state E info m h).2.2.2]

theorem run_snoc_file (c : FileCfg) (E : OptEnv) (x : Call) : ∀ (xs : List Call) (r : FileRep), FileRep.run c E r (xs ++ [x]) = FileRep.run c E r xs >>= fun r => r.on c E x
  | [], r => by
    show (r.on c E x >>= fun r => Res.ok r) = r.on c E x
    cases r.on c E x <;> rfl
  | y :: xs, r => by
    show (r.on c E y >>= fun r => FileRep.run c E r (xs ++ [x])) = (r.on c E y >>= fun r => FileRep.run c E r xs) >>= _
    cases r.on c E y with
    | ok q => exact run_snoc_file c E x xs q
    | err => rfl
    | ub => rfl

theorem on_history {c : FileCfg} {E : OptEnv} {r r' : FileRep} {x : Call} (h : r.on c E x = .ok r') (h1 : x.event ≠ .start) (h2 : x.event ≠ .postStep) : r'.history = r.history := by
  unfold FileRep.on at h
  split at h
  · contradiction
  · cases h; split <;> rfl
  · split at h
    · exact write_history h
    · cases h; rfl
  · exact write_history h
  · contradiction
  · cases h; rfl
  · cases h; rfl

theorem history_of {c : FileCfg} {E : OptEnv} (hf : c.fitHistory = true) (upd : Event × Vis → ObjInfo × List Str × List Dbl) (fs : Str → Option Str) (l : List (Event × Vis)) :
    (∀ pre v post, l = pre ++ (.postStep, v) :: post → ∀ e ∈ post, e.1 ≠ .start) → ∀ r, FileRep.run c E { files := fs } (l.map (callOf upd)) = .ok r →
    r.history = (starts (l.map (callOf upd))).getLast?.map fun x => c.header x :: (posts (l.map (callOf upd))).map (c.histLine E) := by
  induction l using List.reverseRecOn with
  | nil =>
    intro _ r h
    cases h; rfl
  | append_singleton l e ih =>
    intro ho r h
    rw [List.map_append, List.map_singleton, run_snoc_file] at h
    cases hq : FileRep.run c E { files := fs } (l.map (callOf upd)) with
    | err => rw [hq] at h; cases h
    | ub => rw [hq] at h; cases h
    | ok q =>
      rw [hq] at h
      have hi := ih (fun pre v post hl e' he' => ho pre v (post ++ [e]) (by rw [hl]; simp) e' (by simp [he'])) q hq
      change q.on c E (callOf upd e) = .ok r at h
      rw [List.map_append, List.map_singleton, starts, posts, List.filter_append, List.filter_append, ← starts, ← posts]
      by_cases h1 : e.1 = .start
      · have hp : posts (l.map (callOf upd)) = [] := by
          refine List.filter_eq_nil_iff.2 fun x hx => ?_
          obtain ⟨⟨e', v⟩, he', rfl⟩ := List.mem_map.1 hx
          intro hpost
          have hpost : e' = .postStep := of_decide_eq_true hpost
          subst hpost
          obtain ⟨pre, post, rfl⟩ := List.append_of_mem he'
          exact ho pre v (post ++ [e]) (by simp) e (by simp) h1
        unfold FileRep.on at h
        rw [show (callOf upd e).event = .start from h1] at h
        dsimp only at h
        rw [if_pos hf] at h
        cases h
        rw [hp]
        simp [callOf, h1]
      · by_cases h2 : e.1 = .postStep
        · unfold FileRep.on at h
          rw [show (callOf upd e).event = .postStep from h2] at h
          dsimp only at h
          rw [if_pos hf] at h
          cases h
          dsimp only
          rw [hi]
          have h4 : List.filter (fun x : Call => decide (x.event = Event.start)) [callOf upd e] = [] :=
            List.filter_eq_nil_iff.2 fun x hx => by rw [List.mem_singleton.1 hx]; exact fun h => h1 (of_decide_eq_true h)
          have h3 : List.filter (fun x : Call => decide (x.event = Event.postStep)) [callOf upd e] = [callOf upd e] :=
            List.filter_eq_self.2 fun x hx => by rw [List.mem_singleton.1 hx]; exact decide_eq_true h2
          rw [h4, h3]
          simp [Option.map_map, Function.comp_def]
        · rw [on_history h h1 h2, hi]
          have h4 : List.filter (fun x : Call => decide (x.event = Event.start)) [callOf upd e] = [] :=
            List.filter_eq_nil_iff.2 fun x hx => by rw [List.mem_singleton.1 hx]; exact fun h => h1 (of_decide_eq_true h)
          have h3 : List.filter (fun x : Call => decide (x.event = Event.postStep)) [callOf upd e] = [] :=
            List.filter_eq_nil_iff.2 fun x hx => by rw [List.mem_singleton.1 hx]; exact fun h => h2 (of_decide_eq_true h)
          rw [h4, h3]
          simp

/-- **C122.** history.txt has the header of the last start and a line for every completed step; the lines are those of the same calls without the steps that threw. -/
theorem C122_history_file (c : FileCfg) (hf : c.fitHistory = true) (E : OptEnv) (info : ObjInfo) (m : Int) (h : List Try) (upd : Event × Vis → ObjInfo × List Str × List Dbl) (fs : Str → Option Str) (r : FileRep) :
    let xs := ((Opt.new info m).tried E h).log.map (callOf upd)
    let ys := ((Opt.new info m).after E (h.flatMap Try.made)).log.map (callOf upd)
    FileRep.run c E { files := fs } xs = .ok r →
    r.history = (starts xs).getLast?.map (fun x => c.header x :: (posts xs).map (c.histLine E)) ∧ posts xs = posts ys := by
  intro xs ys hr
  refine ⟨history_of hf upd fs _ (fun pre v post hl => C122_start E info m h pre post v hl) r hr, ?_⟩
  have hm : ∀ l : List (Event × Vis), posts (l.map (callOf upd)) = ((l.filter fun e => e.1.Tells).filter fun e => e.1 = .postStep).map (callOf upd) := by
    intro l
    rw [List.filter_filter, posts, List.filter_map]
    congr 1
    refine List.filter_congr fun e _ => ?_
    obtain ⟨ev, v⟩ := e
    cases ev <;> simp [callOf, Event.Tells]
  show posts (List.map _ _) = posts (List.map _ _)
  rw [hm, hm, (C122_state E info m h).2.2.2]

/-! ## MES, EVA and CMA -/

section machine
variable [Libm] {S : Type} {E : OptEnv} {F : Pt → Option Dbl} {M : Machine S} {info : ObjInfo} {nan : Prop} {samp : S → List Pt → S → Prop}

theorem tried_snoc (E : OptEnv) (s : Opt) (l : List Try) (x : Try) : s.tried E (l ++ [x]) = x.apply E (s.tried E l) := by
  unfold Opt.tried; rw [List.foldl_append]; rfl

theorem Machine.Good.sessionT (hM : M.Good E F info nan) (hsamp : ∀ s pop u, samp s pop u → M.opt u = M.opt s) {s t : S} {l : List Try} (h : M.SessionT samp E F s l t) :
    M.opt t = (M.opt s).tried E l ∧ ∀ i, Op.step i ∈ l.flatMap Try.made → i.pop ≠ [] ∧ (∀ x ∈ i.pop, EvaluatedWithin nan info x) ∧ i.res = i.pop.map F := by
  induction h with
  | nil => exact ⟨rfl, by simp⟩
  | @step t t' l i r h st ih =>
    obtain ⟨h1, h2⟩ := hM.base st
    refine ⟨?_, fun j hj => ?_⟩
    · rw [tried_snoc, ← ih.1]
      show M.opt t' = ((M.opt t).step E (Opt.internal E i)).1
      rw [h1]
    · rw [List.flatMap_append, List.mem_append] at hj
      rcases hj with hj | hj
      · exact ih.2 j hj
      · simp only [List.flatMap_cons, List.flatMap_nil, List.append_nil, Try.made, List.mem_singleton, Op.step.injEq] at hj
        subst hj; exact h2
  | @call t l o h ho ih =>
    refine ⟨?_, fun j hj => ?_⟩
    · rw [tried_snoc, ← ih.1, hM.get_put]; rfl
    · rw [List.flatMap_append, List.mem_append] at hj
      rcases hj with hj | hj
      · exact ih.2 j hj
      · simp only [List.flatMap_cons, List.flatMap_nil, List.append_nil, Try.made, List.mem_singleton] at hj
        exact absurd hj.symm (ho j)
  | @fails t u l pop intr h hd hp ih =>
    refine ⟨?_, fun j hj => ?_⟩
    · have hu : M.opt u = (M.opt t).opening := by rw [hsamp _ _ _ hp, hM.get_put]
      have ho : (M.opt t).opened (some pop) = (M.opt t).opening.signal (.preEvaluate pop) := by unfold Opt.opened; rw [if_neg hd]
      rw [tried_snoc, ← ih.1, hM.get_put, hu]
      show _ = if intr then ((M.opt t).opened (some pop)).interrupt else (M.opt t).opened (some pop)
      rw [ho]
    · rw [List.flatMap_append, List.mem_append] at hj
      rcases hj with hj | hj
      · exact ih.2 j hj
      · cases intr <;> simp [Try.made] at hj

theorem Machine.Good.solutionT (hM : M.Good E F info nan) (hsamp : ∀ s pop u, samp s pop u → M.opt u = M.opt s) (hd : info.dim ≠ 0) (hF : ∀ x, F x ≠ some .nan) {s t : S}
    (h0 : Fresh info (M.opt s)) {l : List Try} (h : M.SessionT samp E F s l t) : Solution nan F info (l.flatMap Try.made) (M.opt t).vis := by
  obtain ⟨h1, h2⟩ := hM.sessionT hsamp h
  rw [h1, (told_iff.1 (told_tried E l (s := M.opt s) (t := M.opt s) rfl)).1]
  exact solution_after hd hF h0 h2

theorem Machine.Good.WFT (hM : M.Good E F info nan) (hsamp : ∀ s pop u, samp s pop u → M.opt u = M.opt s) (hd : info.dim ≠ 0) {s t : S}
    (h0 : (M.opt s).vis.WF info 0) {l : List Try} (h : M.SessionT samp E F s l t) : (M.opt t).vis.WF info 0 := by
  obtain ⟨h1, h2⟩ := hM.sessionT hsamp h
  rw [h1, (told_iff.1 (told_tried E l (s := M.opt s) (t := M.opt s) rfl)).1]
  refine (history_induction (E := E) hd h0 (fun _ _ => True) trivial (by simp) _ fun o ho => ?_).1
  cases o with
  | step i =>
    obtain ⟨h1, h2, h3⟩ := h2 i ho
    exact ⟨h1, by rw [h3, List.length_map], fun p hp => (h2 p hp).length⟩
  | _ => trivial

end machine

theorem evaluate_true {E : OptEnv} {s o : Opt} {pop : List Pt} {res : List (Option Dbl)} (hm : s.vis.maxErrors = 0) (h : s.evaluateStep E pop res = (o, .ok true)) :
    (∀ r ∈ res, r ≠ none) ∧ o.vis.info = s.vis.info ∧ o.vis.curFitnesses = res.map fun r => r.getD s.vis.info.worstFitness := by
  unfold Opt.evaluateStep at h
  have hu : (s.signal (.preEvaluate pop)).vis = s.vis := rfl
  generalize s.signal (.preEvaluate pop) = u at h hu
  rw [← hu] at hm ⊢
  dsimp only at h
  have hti : ∀ v : Vis, (v.track E).info = v.info ∧ (v.track E).curFitnesses = v.curFitnesses := by intro v; unfold Vis.track; split <;> exact ⟨rfl, rfl⟩
  by_cases hE : (errorCount res : Int) > allowedErrors u.vis.maxErrors res.length
  · rw [if_pos hE] at h
    simp at h
  · rw [if_neg hE] at h
    have hr : ∀ r ∈ res, r ≠ none := by
      rintro r hr rfl
      rw [hm] at hE
      apply hE
      simp only [allowedErrors, ge_iff_le, le_refl, if_true]
      unfold errorCount
      have : 0 < (res.filter Option.isNone).length := List.length_pos_of_mem (List.mem_filter.2 ⟨hr, rfl⟩)
      omega
    refine ⟨hr, ?_⟩
    generalize List.map (fun r : Option Dbl => r.getD u.vis.info.worstFitness) res = fs at h ⊢
    cases hf : fs[u.vis.info.findBestFitness fs]? with
    | none => rw [hf] at h; simp at h
    | some f =>
      cases hp : pop[u.vis.info.findBestFitness fs]? with
      | none => rw [hf, hp] at h; simp at h
      | some p =>
        rw [hf, hp] at h
        dsimp only at h
        by_cases hb : u.vis.info.isBetter f u.vis.bestFitness = true
        · by_cases hl : u.vis.bestPoint.length = p.length
          · simp only [hb, hl, if_true] at h
            obtain ⟨rfl, -⟩ := Prod.mk.inj h
            exact hti _
          · simp [hb, hl] at h
        · simp only [hb] at h
          obtain ⟨rfl, -⟩ := Prod.mk.inj h
          exact hti _

theorem evaluate_false {E : OptEnv} {s o : Opt} {pop : List Pt} {res : List (Option Dbl)} (hm : s.vis.maxErrors = 0) (h : s.evaluateStep E pop res = (o, .ok false)) :
    ∃ r ∈ res, r = none := by
  unfold Opt.evaluateStep at h
  have hu : (s.signal (.preEvaluate pop)).vis = s.vis := rfl
  generalize s.signal (.preEvaluate pop) = u at h hu
  rw [← hu] at hm
  dsimp only at h
  by_contra hn
  push_neg at hn
  have hE : ¬ (errorCount res : Int) > allowedErrors u.vis.maxErrors res.length := by
    rw [hm]
    simp only [allowedErrors, ge_iff_le, le_refl, if_true]
    have : errorCount res = 0 := by
      unfold errorCount
      rw [List.length_eq_zero_iff, List.filter_eq_nil_iff]
      intro r hr
      have := hn r hr
      cases r <;> simp_all
    simp [this]
  rw [if_neg hE] at h
  generalize List.map (fun r : Option Dbl => r.getD u.vis.info.worstFitness) res = fs at h
  cases hf : fs[u.vis.info.findBestFitness fs]? with
  | none => rw [hf] at h; simp at h
  | some f =>
    cases hp : pop[u.vis.info.findBestFitness fs]? with
    | none => rw [hf, hp] at h; simp at h
    | some p =>
      rw [hf, hp] at h
      dsimp only at h
      by_cases hb : u.vis.info.isBetter f u.vis.bestFitness = true
      · by_cases hl : u.vis.bestPoint.length = p.length <;> simp [hb, hl] at h
      · simp [hb] at h

theorem all_some {F : Pt → Option Dbl} {pop : List Pt} (h : ∀ r ∈ pop.map F, r ≠ none) : pop.all (fun x => (F x).isSome) = true := by
  rw [List.all_eq_true]
  intro x hx
  exact Option.isSome_iff_ne_none.2 (h _ (List.mem_map_of_mem hx))

theorem not_all_some {F : Pt → Option Dbl} {pop : List Pt} (h : ∃ r ∈ pop.map F, r = none) : pop.all (fun x => (F x).isSome) = false := by
  obtain ⟨r, hr, rfl⟩ := h
  obtain ⟨x, hx, he⟩ := List.mem_map.1 hr
  rw [List.all_eq_false]
  exact ⟨x, hx, by simp [he]⟩

section es
variable [Libm] {R : Rng Dbl} (hR : R.NoNaN) (E : OptEnv) (info : ObjInfo) (hd : info.dim ≠ 0) (hv : ∀ p ∈ info.pars, p.isValid = true) (c : EsCfg R info.dim)
  (hc : c.bounds = Bounds.ofInfo info) (hl : 1 ≤ c.lambda) (h0 : 0 ≤ c.mu) (h1 : c.mu ≤ c.lambda) (F : Pt → Option Dbl) (e : R.Eng)
include hR hv hc hl h0 h1 hd

/-- **C122.** A MES or EVA optimizer whose evaluator threw in some steps is the base class after the same calls; the solution it shows is that of the steps that did not throw. -/
theorem C122_solution_mes_eva (hF : ∀ x, F x ≠ some .nan) {l : List Try} {t : EsOpt R info.dim} (h : (esMachine E c).SessionT (EsOpt.samples c) E F (EsOpt.make info e) l t) :
    t.opt = (EsOpt.make (R := R) info e).opt.tried E l ∧ Solution False F info (l.flatMap Try.made) t.opt.vis := by
  have hM := es_good hR E info hv c hc hl h0 h1 F
  have hs : ∀ (s : EsOpt R info.dim) pop u, EsOpt.samples c s pop u → (esMachine E c).opt u = (esMachine E c).opt s := by
    rintro s pop u ⟨e, -, rfl⟩; rfl
  exact ⟨(hM.sessionT hs h).1, hM.solutionT hs hd hF (show Fresh info ((esMachine E c).opt (EsOpt.make info e)) from rfl) h⟩

/-- **C122.** The distribution of MES and EVA is that of the objective updated for the populations of the completed steps, in their order: steps that throw change nothing of it. -/
theorem C122_distribution_mes_eva {l : List Try} {t : EsOpt R info.dim} (h : (esMachine E c).SessionT (EsOpt.samples c) E F (EsOpt.make info e) l t) :
    Es.Updates c info F (EsOpt.make (R := R) info e).dist (l.flatMap (Try.completed F)) t.dist := by
  have hM := es_good hR E info hv c hc hl h0 h1 F
  have hs : ∀ (s : EsOpt R info.dim) pop u, EsOpt.samples c s pop u → (esMachine E c).opt u = (esMachine E c).opt s := by
    rintro s pop u ⟨e, -, rfl⟩; rfl
  have hfr : ((esMachine E c).opt (EsOpt.make info e)).vis.WF info 0 := fresh_WF (o := (esMachine E c).opt (EsOpt.make info e)) rfl
  generalize hs0 : EsOpt.make (R := R) info e = s0 at h hfr ⊢
  induction h with
  | nil => exact .nil
  | @step t t' l i r h st ih =>
    have hw := hM.WFT hs hd hfr h
    rw [List.flatMap_append, List.flatMap_singleton]
    cases st with
    | @mk u pop intr ok o _ hd' hi he hc' =>
      have hvis : ((esMachine E c).put t ((esMachine E c).opt t).opening).opt.vis = t.opt.vis := by
        show t.opt.opening.vis = t.opt.vis
        rw [opening_begun, begun_vis]
      change Es.Updates c info F s0.dist (l.flatMap (Try.completed F) ++ if pop.all fun x => (F x).isSome then [pop] else []) u.dist
      change EsOpt.Internal E c F _ pop u at hi
      cases hi with
      | ok hp he' ho hu =>
        obtain ⟨g1, g2, g3⟩ := evaluate_true (by rw [hvis]; exact hw.maxErr) he'
        rw [hvis] at g2 g3
        have hinfo : t.opt.vis.info = info := hw.info_eq
        rw [g2, g3, hinfo, List.map_map] at ho
        rw [if_pos (all_some g1)]
        exact .snoc ih ho hu
      | failed hp he' =>
        have g := evaluate_false (by rw [hvis]; exact hw.maxErr) he'
        rw [if_neg (by rw [not_all_some g]; simp), List.append_nil]
        exact ih
  | @call t l o h ho ih =>
    have hn : Try.completed F (.call o) = [] := by
      cases o with
      | step i => exact absurd rfl (ho i)
      | _ => rfl
    rw [List.flatMap_append, List.flatMap_singleton, hn, List.append_nil]
    exact ih
  | @fails t u l pop intr h hd' hp ih =>
    rw [List.flatMap_append, List.flatMap_singleton]
    obtain ⟨e, -, rfl⟩ := hp
    change Es.Updates c info F s0.dist (l.flatMap (Try.completed F) ++ []) t.dist
    rw [List.append_nil]
    exact ih

end es

section cma
variable [Libm] {G : GaussSrc Dbl} (E : OptEnv) (info : ObjInfo) (hd : info.dim ≠ 0) (hv : ∀ p ∈ info.pars, p.isValid = true) (c : CmaCfg info.dim)
  (hc : c.bounds = Bounds.ofInfo info) (hl : 1 ≤ c.par.lambda) (F : Pt → Option Dbl) (opt : Int) (modulo : Dbl) (rng : G.St) (s0 : CmaOpt G info.dim)
  (hs0 : CmaOpt.make info opt modulo rng = .ok (c.par, s0))
include hd hv hc hl hs0

/-- **C122.** The same for CMA. -/
theorem C122_solution_cma (hF : ∀ x, F x ≠ some .nan) {l : List Try} {t : CmaOpt G info.dim} (h : (cmaMachine E c).SessionT (CmaOpt.samples c) E F s0 l t) :
    t.opt = s0.opt.tried E l ∧ Solution True F info (l.flatMap Try.made) t.opt.vis := by
  have hM := cma_good (G := G) E info hd hv c hc hl F
  have hs : ∀ (s : CmaOpt G info.dim) pop u, CmaOpt.samples c s pop u → (cmaMachine E c).opt u = (cmaMachine E c).opt s := by
    rintro s pop u ⟨d, xs, -, -, -, rfl⟩; rfl
  exact ⟨(hM.sessionT hs h).1, hM.solutionT hs hd hF (make_ok hs0).1 h⟩

/-- **C122.** The distribution of CMA is that after a sequence of calls of `sample_population` and `update_distribution` in which every update succeeds and belongs to a completed step, with its results: what
holds for all sequences of such calls (C53 - C57, C71) holds with steps that throw. -/
theorem C122_distribution_cma {l : List Try} {t : CmaOpt G info.dim} (h : (cmaMachine E c).SessionT (CmaOpt.samples c) E F s0 l t) :
    Cma.Calls c.bounds info.minimize c.eig c.par s0.cma (l.flatMap (Try.cma info.dim c.tr info F)) t.cma := by
  have hM := cma_good (G := G) E info hd hv c hc hl F
  have hs : ∀ (s : CmaOpt G info.dim) pop u, CmaOpt.samples c s pop u → (cmaMachine E c).opt u = (cmaMachine E c).opt s := by
    rintro s pop u ⟨d, xs, -, -, -, rfl⟩; rfl
  have hfr : ((cmaMachine E c).opt s0).vis.WF info 0 := fresh_WF (make_ok hs0).1
  induction h with
  | nil => exact .nil
  | @step t t' l i r h st ih =>
    have hw := hM.WFT hs hd hfr h
    rw [List.flatMap_append, List.flatMap_singleton]
    cases st with
    | @mk u pop intr ok o _ hd' hi he hc' =>
      have hvis : ((cmaMachine E c).put t ((cmaMachine E c).opt t).opening).opt.vis = t.opt.vis := by
        show t.opt.opening.vis = t.opt.vis
        rw [opening_begun, begun_vis]
      have hinfo : t.opt.vis.info = info := hw.info_eq
      change Cma.Calls c.bounds info.minimize c.eig c.par s0.cma (l.flatMap (Try.cma info.dim c.tr info F) ++
        ((.sample c.tr, .ok ()) :: if pop.all fun x => (F x).isSome then [(.update (pop.map fun x => (F x).getD info.worstFitness), .ok ())] else [])) u.cma
      change CmaOpt.Internal E c F _ pop u at hi
      have h1 := ih.snoc (.sample c.tr)
      cases hi with
      | @ok d d' xs o' hn hp he' hu =>
        have hd1 : (t.cma.call c.bounds info.minimize c.eig c.par (.sample c.tr)).1 = d := congrArg Prod.fst hp
        obtain ⟨g1, g2, g3⟩ := evaluate_true (by rw [hvis]; exact hw.maxErr) he'
        rw [hvis] at g2 g3
        rw [g2, g3, hinfo, List.map_map] at hu
        rw [if_pos (all_some g1)]
        have h2 := h1.snoc (.update ((toPoints xs).map fun x => (F x).getD info.worstFitness))
        rw [hd1] at h2
        have hu' : d.call c.bounds info.minimize c.eig c.par (.update ((toPoints xs).map fun x => (F x).getD info.worstFitness)) = (d', .ok ()) := hu
        rw [hu', List.append_assoc] at h2
        exact h2
      | @failed d xs o' hn hp he' =>
        have hd1 : (t.cma.call c.bounds info.minimize c.eig c.par (.sample c.tr)).1 = d := congrArg Prod.fst hp
        have g := evaluate_false (by rw [hvis]; exact hw.maxErr) he'
        rw [if_neg (by rw [not_all_some g]; simp)]
        rw [hd1] at h1
        exact h1
  | @call t l o h ho ih =>
    have hn : Try.cma info.dim c.tr info F (.call o) = [] := by
      cases o with
      | step i => exact absurd rfl (ho i)
      | _ => rfl
    rw [List.flatMap_append, List.flatMap_singleton, hn, List.append_nil]
    exact ih
  | @fails t u l pop intr h hd' hp ih =>
    rw [List.flatMap_append, List.flatMap_singleton]
    obtain ⟨d, xs, -, hp, -, rfl⟩ := hp
    have h1 := ih.snoc (.sample c.tr)
    have hd1 : (t.cma.call c.bounds info.minimize c.eig c.par (.sample c.tr)).1 = d := congrArg Prod.fst hp
    rw [hd1] at h1
    exact h1

end cma

/-- Two steps that end with an exception, one that is completed, another one with an exception and another one that is completed: `on_start` is sent three times. -/
example : (((Opt.new optInfo 0).tried optEnv
    [.fails none false, .fails (some [[.fin 1]]) false, .call (.step { pop := [[.fin 1]], res := [some (.fin 3)] }), .fails (some [[.fin 4]]) false,
     .call (.step { pop := [[.fin 2]], res := [some (.fin 2)] })]).log.map Prod.fst =
  [.start, .preStep, .start, .preStep, .preEvaluate [[.fin 1]], .start, .preStep, .preEvaluate [[.fin 1]], .newBest [.fin 1] (.fin 3), .postEvaluate [[.fin 1]] [.fin 3] true, .postStep,
   .preStep, .preEvaluate [[.fin 4]], .preStep, .preEvaluate [[.fin 2]], .newBest [.fin 2] (.fin 2), .postEvaluate [[.fin 2]] [.fin 2] true, .postStep]) ∧
  ((Opt.new optInfo 0).tried optEnv
    [.fails none false, .fails (some [[.fin 1]]) false, .call (.step { pop := [[.fin 1]], res := [some (.fin 3)] }), .fails (some [[.fin 4]]) false,
     .call (.step { pop := [[.fin 2]], res := [some (.fin 2)] })]).vis.stepCount = 2 := by decide +kernel

/-- history.txt after the same calls: a header and two lines, and two par files. -/
example : repCfg.individuals = false ∧ repCfg.fitHistory = true ∧ (match FileRep.run repCfg optEnv { files := fun _ => none } (((Opt.new optInfo 0).tried optEnv
    [.fails none false, .fails (some [[.fin 1]]) false, .call (.step { pop := [[.fin 1]], res := [some (.fin 3)] }), .fails (some [[.fin 4]]) false,
     .call (.step { pop := [[.fin 2]], res := [some (.fin 2)] })]).log.map (callOf fun e => (e.2.info, [], []))) with
    | .ok r => decide (r.written.map Prod.fst = [0, 1] ∧ r.history.map List.length = some 3)
    | _ => false) = true := by decide +kernel

/-- A MES or EVA optimizer whose evaluator throws in the first step and in the third one. -/
example [Libm] {R : Rng Dbl} (hR : R.NoNaN) (E : OptEnv) (alg : EsAlg Dbl) (e : R.Eng) (F : Pt → Option Dbl) :
    ∃ p i q t, (esMachine E ⟨alg, .fin 0, 10, 5, Bounds.ofInfo boundsInfo⟩).SessionT (EsOpt.samples ⟨alg, .fin 0, 10, 5, Bounds.ofInfo boundsInfo⟩) E F (EsOpt.make (R := R) boundsInfo e)
      [.fails (some p) false, .call (.step i), .fails (some q) true] t ∧ t.opt.vis.stopRequested = true := by
  have hv : ∀ p ∈ boundsInfo.pars, p.isValid = true := by decide +kernel
  have hdim : boundsInfo.dim ≠ 0 := by decide
  have hM := es_good hR E boundsInfo hv ⟨alg, .fin 0, 10, 5, Bounds.ofInfo boundsInfo⟩ rfl (by simp) (by simp) (by simp) F
  have hs : ∀ (s : EsOpt R boundsInfo.dim) pop u, EsOpt.samples ⟨alg, .fin 0, 10, 5, Bounds.ofInfo boundsInfo⟩ s pop u →
      (esMachine E ⟨alg, .fin 0, 10, 5, Bounds.ofInfo boundsInfo⟩).opt u = (esMachine E ⟨alg, .fin 0, 10, 5, Bounds.ofInfo boundsInfo⟩).opt s := by
    rintro s pop u ⟨e, -, rfl⟩; rfl
  have hfr := fresh_WF (info := boundsInfo) (o := (EsOpt.make (R := R) boundsInfo e).opt) rfl
  have h1 := Machine.SessionT.fails (M := esMachine E ⟨alg, .fin 0, 10, 5, Bounds.ofInfo boundsInfo⟩) (samp := EsOpt.samples ⟨alg, .fin 0, 10, 5, Bounds.ofInfo boundsInfo⟩)
    (E := E) (F := F) (s := EsOpt.make (R := R) boundsInfo e) (intr := false) .nil hdim ⟨_, rfl, rfl⟩
  have hw := hM.WFT hs hdim (s := EsOpt.make (R := R) boundsInfo e) hfr h1
  obtain ⟨i, t, r, st⟩ := hM.next hdim hw
  have h2 := h1.step st
  have hw2 := hM.WFT hs hdim (s := EsOpt.make (R := R) boundsInfo e) hfr h2
  have hd2 : t.opt.vis.info.dim ≠ 0 := by
    have : t.opt.vis.info = boundsInfo := hw2.info_eq
    rw [this]; exact hdim
  exact ⟨_, _, _, _, h2.fails (intr := true) hd2 ⟨_, rfl, rfl⟩, rfl⟩

end Spot
