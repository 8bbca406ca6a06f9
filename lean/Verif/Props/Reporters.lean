import Verif.Props.Control

/-!
# C28, C29: reporters
-/

namespace Spot

/-! ## C28 -/

/-- The callbacks of one step according to the documentation of spot/reporter.h: `first` says whether no step has been completed
yet, `failed` whether too many evaluations failed, `improved` whether the step improved the best fitness, `stop` is the stop
condition if one fires for the first time. -/
def protocol (first failed improved : Bool) (stop : Option Nat) (pop : List Pt) (fs : List Dbl) (best : Pt) (f : Dbl) : List Event :=
  (if first then [.start] else []) ++ [.preStep, .preEvaluate pop] ++
  (if failed then [] else
    (if improved then [.newBest best f] else []) ++ [.postEvaluate pop fs improved, .postStep]) ++
  (stop.map Event.stop).toList

/-- What a reporter can rely on when it is called during a step that started in state `old`. -/
def Seen (old : Vis) : Event × Vis → Prop
  | (.start, v) => v = old
  | (.preStep, v) => v = old
  | (.preEvaluate _, v) => v = old
  | (.newBest p f, v) => v.bestFitness = f ∧ v.bestPoint = p ∧ v.curFitness = f ∧ v.curPoint.map rounded = p ∧
      old.info.isBetter f old.bestFitness = true ∧ v.stepCount = old.stepCount ∧ v.info = old.info ∧ v.curPoint.length = old.info.dim
  | (.postEvaluate _ fs nb, v) => v.curFitnesses = fs ∧ v.stepCount = old.stepCount ∧
      (nb = true ↔ old.info.isBetter v.curFitness old.bestFitness = true) ∧
      v.bestFitness = (if nb then v.curFitness else old.bestFitness) ∧
      (0 < old.capacity → v.samples = old.samples + 1) ∧ v.info = old.info ∧ v.curPoint.length = old.info.dim
  | (.postStep, v) => v.stepCount = old.stepCount ∧ v.info = old.info ∧ v.curPoint.length = old.info.dim ∧ v.capacity = old.capacity
  | (.stop _, v) => v.stepCount = old.stepCount ∨ v.stepCount = old.stepCount + 1

theorem begun_log (s : Opt) : s.begun.log = s.log ++ (if s.vis.stepCount = 0 then [(.start, s.vis)] else []) ++ [(.preStep, s.vis)] := by
  unfold Opt.begun Opt.signal; split <;> simp

theorem evald_log (E : OptEnv) (i : In) (s : Opt) :
    (s.evald E i).log = s.log ++ [(.preEvaluate i.pop, s.vis)] ++
      (let v := s.vis.evaluated (i.res.map (fitOf s.vis.info)) (i.best s.vis.info) (i.bestPt s.vis.info)
       let nb := s.vis.info.isBetter (i.best s.vis.info) s.vis.bestFitness
       (if nb then [(.newBest ((i.bestPt s.vis.info).map rounded) (i.best s.vis.info), v)] else []) ++
         [(.postEvaluate i.pop (i.res.map (fitOf s.vis.info)) nb, v.track E)]) := by
  unfold Opt.evald Opt.signal Opt.interrupt; dsimp only
  split <;> split <;> simp_all

/-- **C28.** Each step signals exactly the documented callbacks, in order, with the evaluated population and fitnesses, the best
point (rounded, as all points) and the first stop condition; `on_post_evaluate_population` already sees the new best fitness. -/
theorem C28_protocol (E : OptEnv) (info : ObjInfo) (m : Int) (hd : info.dim ≠ 0) (h : List Op) (i : In)
    (hv : ∀ o ∈ h, o.Valid info) (hi : i.Valid info) :
    let s := (Opt.new info m).after E h
    let t := (s.step E (Opt.internal E i)).1
    ∃ new : List (Event × Vis), t.log = s.log ++ new ∧ (∀ e ∈ new, Seen s.vis e) ∧
      ∃ stop : Option Nat, (s.stopped = none → stop = t.stopped) ∧ (s.stopped ≠ none → stop = none) ∧
      new.map Prod.fst = protocol (s.vis.stepCount = 0) (i.Failed m) (info.isBetter t.vis.bestFitness s.vis.bestFitness) stop i.pop
        (i.res.map (fitOf info)) t.vis.bestPoint t.vis.bestFitness ∧
      ∀ pop fs nb v, (.postEvaluate pop fs nb, v) ∈ new → v.bestFitness = t.vis.bestFitness := by
  obtain ⟨⟨h1, h2, h3⟩, hc⟩ := history_facts E info m hd h hv
  intro s t
  have hd' : s.vis.info.dim ≠ 0 := by rw [h1]; exact hd
  have hi' : i.Valid s.vis.info := by rw [h1]; exact hi
  have hl' : s.vis.bestPoint.length = s.vis.info.dim := by rw [h1]; exact h3
  have ht : t = ((s.preTest E i).testStop E).1 := by
    show (s.step E (Opt.internal E i)).1 = _; rw [step_preTest hd' hi' hl']
  have hcore := core_ext (show t.vis.core = (s.vis.stepped E i).core by rw [ht, testStop_core, preTest_vis hi' hl'])
  -- the log before the test
  have hpre : ∃ new : List (Event × Vis), (s.preTest E i).log = s.log ++ new ∧ (∀ e ∈ new, Seen s.vis e) ∧
      new.map Prod.fst = protocol (s.vis.stepCount = 0) (i.Failed m) (info.isBetter t.vis.bestFitness s.vis.bestFitness) none i.pop
        (i.res.map (fitOf info)) t.vis.bestPoint t.vis.bestFitness ∧
      ∀ pop fs nb v, (.postEvaluate pop fs nb, v) ∈ new → v.bestFitness = t.vis.bestFitness := by
    by_cases hf : i.Failed m
    · have hf' : i.Failed s.vis.maxErrors := by rw [h2]; exact hf
      refine ⟨(if s.vis.stepCount = 0 then [(.start, s.vis)] else []) ++ [(.preStep, s.vis)] ++ [(.preEvaluate i.pop, s.vis)], ?_, ?_, ?_, ?_⟩
      · rw [preTest_failed hf']
        cases i.interrupt <;> simp [Opt.signal, Opt.interrupt, begun_log, begun_vis]
      · intro e he
        by_cases h0 : s.vis.stepCount = 0 <;> simp [h0] at he <;> rcases he with rfl | rfl | rfl <;> simp [Seen]
      · by_cases h0 : s.vis.stepCount = 0 <;> simp [protocol, h0, hf]
      · intro pop fs nb v he
        by_cases h0 : s.vis.stepCount = 0 <;> simp [h0] at he
    · have hf' : ¬ i.Failed s.vis.maxErrors := by rw [h2]; exact hf
      obtain ⟨e1, e2, -⟩ := stepped_completed E (v := s.vis) (i := i) hf'
      set nb := s.vis.info.isBetter (i.best s.vis.info) s.vis.bestFitness with hnb
      have hbest : t.vis.bestFitness = if nb then i.best s.vis.info else s.vis.bestFitness := by rw [hcore.2.2.1, e1]
      have hpt : t.vis.bestPoint = if nb then (i.bestPt s.vis.info).map rounded else s.vis.bestPoint := by rw [hcore.2.2.2.1, e2]
      have himp : info.isBetter t.vis.bestFitness s.vis.bestFitness = nb := by
        rw [hbest, ← h1]
        cases hb : nb
        · simpa using (C67_strict_order s.vis.info).1 _
        · simpa [hnb] using hb
      set v := s.vis.evaluated (i.res.map (fitOf s.vis.info)) (i.best s.vis.info) (i.bestPt s.vis.info) with hvdef
      obtain ⟨u, hu⟩ : ∃ u : Vis, u = (s.begun.evald E i).vis := ⟨_, rfl⟩
      have hbl := (In.bestPt_get hi').2.2
      have husc : u.stepCount = s.vis.stepCount ∧ u.info = s.vis.info ∧ u.curPoint.length = s.vis.info.dim ∧ u.capacity = s.vis.capacity := by
        rw [hu]; unfold Opt.evald; dsimp only; rw [ite_interrupt_vis]
        have ht : ∀ v : Vis, (v.track E).stepCount = v.stepCount ∧ (v.track E).info = v.info ∧ (v.track E).curPoint = v.curPoint ∧ (v.track E).capacity = v.capacity :=
          fun v => by unfold Vis.track; split <;> exact ⟨rfl, rfl, rfl, rfl⟩
        simp only [signal_vis]
        cases i.interrupt <;> simp [Vis.withInterrupt, ht, Vis.evaluated, begun_vis, hbl]
      refine ⟨(if s.vis.stepCount = 0 then [(.start, s.vis)] else []) ++ [(.preStep, s.vis)] ++ [(.preEvaluate i.pop, s.vis)] ++
        ((if nb then [(.newBest ((i.bestPt s.vis.info).map rounded) (i.best s.vis.info), v)] else []) ++
         [(.postEvaluate i.pop (i.res.map (fitOf s.vis.info)) nb, v.track E)]) ++ [(.postStep, u)], ?_, ?_, ?_, ?_⟩
      · rw [preTest_completed hi' hl' hf']
        simp only [Opt.ended, Opt.signal, evald_log, begun_vis, begun_log, ← hnb, ← hvdef, ← hu]
        simp
      · have hseen1 : ∀ e ∈ (if s.vis.stepCount = 0 then [((.start : Event), s.vis)] else []) ++ [(.preStep, s.vis)] ++ [(.preEvaluate i.pop, s.vis)], Seen s.vis e := by
          intro e he
          by_cases h0 : s.vis.stepCount = 0 <;> simp [h0] at he <;> rcases he with rfl | rfl | rfl <;> simp [Seen]
        have hseen2 : nb = true → Seen s.vis (.newBest ((i.bestPt s.vis.info).map rounded) (i.best s.vis.info), v) := by
          intro hb
          have hb' := hb; rw [hnb] at hb'
          simp [Seen, hvdef, Vis.evaluated, hb', hbl]
        have hseen3 : Seen s.vis (.postEvaluate i.pop (i.res.map (fitOf s.vis.info)) nb, v.track E) := by
          obtain ⟨t1, t2, t3, t4, t5, t6, t7⟩ := track_best E v
          have ht : (v.track E).stepCount = v.stepCount := by unfold Vis.track; split <;> rfl
          have hsmp : (v.track E).samples = if v.capacity > 0 then v.samples + 1 else v.samples := by unfold Vis.track; split <;> rfl
          have hti : (v.track E).info = v.info := by unfold Vis.track; split <;> rfl
          refine ⟨t5, ht, ?_, ?_, ?_, hti, by rw [t4]; exact hbl⟩
          · rw [t3, hnb]; rfl
          · rw [t1, t3]; rfl
          · intro h0; rw [hsmp]; exact if_pos h0
        have hseen4 : Seen s.vis (.postStep, u) := husc
        intro e he
        cases hb : nb
        · rw [hb] at he hseen3
          simp only [Bool.false_eq_true, if_false, List.nil_append] at he
          rcases List.mem_append.1 he with he | he
          · rcases List.mem_append.1 he with he | he
            · exact hseen1 e he
            · rw [List.mem_singleton] at he; rw [he]; exact hseen3
          · rw [List.mem_singleton] at he; rw [he]; exact hseen4
        · rw [hb] at he hseen3
          simp only [if_true] at he
          rcases List.mem_append.1 he with he | he
          · rcases List.mem_append.1 he with he | he
            · exact hseen1 e he
            · simp only [List.cons_append, List.nil_append, List.mem_cons, List.not_mem_nil, or_false] at he
              rcases he with rfl | rfl
              · exact hseen2 hb
              · exact hseen3
          · rw [List.mem_singleton] at he; rw [he]; exact hseen4
      · rw [himp]
        have h1' : s.vis.info = info := h1
        rw [h1'] at hbest hpt
        cases hb : nb <;> rw [hb] at hbest hpt <;> by_cases h0 : s.vis.stepCount = 0 <;> simp [protocol, h0, hf, hbest, hpt, h1']
      · intro pop fs nb' w he
        have hw : w = v.track E := by
          cases hb : nb <;> rw [hb] at he <;> by_cases h0 : s.vis.stepCount = 0 <;> simp [h0] at he <;> exact he.2
        rw [hw, (track_best E v).1, hbest]; rfl
  obtain ⟨new, g1, g2, g3, g4⟩ := hpre
  have hprot : ∀ k, protocol (s.vis.stepCount = 0) (i.Failed m) (info.isBetter t.vis.bestFitness s.vis.bestFitness) (some k) i.pop
        (i.res.map (fitOf info)) t.vis.bestPoint t.vis.bestFitness = protocol (s.vis.stepCount = 0) (i.Failed m) (info.isBetter t.vis.bestFitness s.vis.bestFitness) none i.pop
        (i.res.map (fitOf info)) t.vis.bestPoint t.vis.bestFitness ++ [.stop k] := by
    intro k; simp [protocol]
  have p1 := (preTest_stopped (E := E) hi' hl').1
  rcases testStop_cases E (s.preTest E i) with ⟨k, q0, he⟩ | ⟨q0, k, q1, q2, v, q3, q4⟩ | ⟨q0, q1, q2, q3⟩
  · refine ⟨new, by rw [ht, he]; exact g1, g2, none, ?_, fun _ => rfl, g3, g4⟩
    intro hs; rw [← p1, q0] at hs; simp at hs
  · refine ⟨new ++ [(.stop k, v)], by rw [ht, q4, g1]; simp, ?_, some k, ?_, ?_, ?_, ?_⟩
    · intro e he
      rcases List.mem_append.1 he with he | he
      · exact g2 e he
      · rw [List.mem_singleton] at he; subst he
        have hsc := (core_ext q3).2.1
        rw [preTest_vis hi' hl'] at hsc
        show v.stepCount = _ ∨ v.stepCount = _
        rw [hsc]
        by_cases hf : i.Failed s.vis.maxErrors
        · left; rw [stepped_failed E hf]; cases i.interrupt <;> rfl
        · right; exact (stepped_completed E hf).2.2.2.2.2.1
    · intro _; rw [ht, q2]
    · intro hs; rw [← p1, q0] at hs; exact absurd rfl hs
    · rw [List.map_append, g3, hprot]; rfl
    · intro pop fs nb w hw
      rcases List.mem_append.1 hw with hw | hw
      · exact g4 pop fs nb w hw
      · simp at hw
  · refine ⟨new, by rw [ht, q3]; exact g1, g2, none, ?_, fun _ => rfl, g3, g4⟩
    intro _; rw [ht, q2]

/-- Two steps with a step limit: the callbacks of the second one. -/
example : (((Opt.new optInfo 0).addCond (.maxSteps 2)).after optEnv
    [.step { pop := [[.fin 1]], res := [some (.fin 3)] }, .step { pop := [[.fin 2]], res := [some (.fin 3)] }]).log.map Prod.fst =
  [.start, .preStep, .preEvaluate [[.fin 1]], .newBest [.fin 1] (.fin 3), .postEvaluate [[.fin 1]] [.fin 3] true, .postStep,
   .preStep, .preEvaluate [[.fin 2]], .postEvaluate [[.fin 2]] [.fin 3] false, .postStep, .stop 2] := by decide +kernel

/-- **C28.** The callbacks are signalled only by `step()`, except for `on_stop` that `test_stop_conditions()` may signal. -/
theorem C28_only_steps (E : OptEnv) (s : Opt) (o : Op) (h : ∀ i, o ≠ .step i) :
    (o.apply E s).log = s.log ∨ ∃ k v, o = .test ∧ s.stopped = none ∧ (o.apply E s).log = s.log ++ [(.stop k, v)] := by
  cases o with
  | step i => exact absurd rfl (h i)
  | test =>
    rcases testStop_cases E s with ⟨k, q0, he⟩ | ⟨q0, k, q1, q2, v, q3, q4⟩ | ⟨q0, q1, q2, q3⟩
    · left; show (s.testStop E).1.log = _; rw [he]
    · right; exact ⟨k, v, rfl, q0, q4⟩
    · left; exact q3
  | _ => left; rfl

/-! ## C29 -/

/-- Everything except the reporters. -/
def Opt.bare (s : Opt) : Opt := { s with reps := [] }

theorem bare_signal (s : Opt) (e : Event) : (s.signal e).bare = (s.bare.signal e).bare := rfl

theorem bare_testStop (E : OptEnv) {s t : Opt} (h : s.bare = t.bare) :
    (s.testStop E).1.bare = (t.testStop E).1.bare ∧ (s.testStop E).2 = (t.testStop E).2 := by
  obtain ⟨v, c, st, r, l⟩ := s; obtain ⟨v', c', st', r', l'⟩ := t
  simp only [Opt.bare, Opt.mk.injEq, and_true, true_and] at h
  obtain ⟨rfl, rfl, rfl, rfl⟩ := h
  unfold Opt.testStop; dsimp only
  cases st with
  | some k => exact ⟨rfl, rfl⟩
  | none =>
    dsimp only
    split <;> rename_i heq
    · exact ⟨rfl, rfl⟩
    · exact ⟨rfl, rfl⟩

theorem bare_internal (E : OptEnv) (i : In) {s t : Opt} (h : s.bare = t.bare) :
    (Opt.internal E i s).1.bare = (Opt.internal E i t).1.bare ∧ (Opt.internal E i s).2 = (Opt.internal E i t).2 := by
  obtain ⟨v, c, st, r, l⟩ := s; obtain ⟨v', c', st', r', l'⟩ := t
  simp only [Opt.bare, Opt.mk.injEq, and_true, true_and] at h
  obtain ⟨rfl, rfl, rfl, rfl⟩ := h
  unfold Opt.internal Opt.evaluateStep; dsimp only [Opt.signal]
  by_cases hE : (errorCount i.res : Int) > allowedErrors v.maxErrors i.res.length
  · simp only [hE, if_true]
    cases i.interrupt <;> first | exact ⟨rfl, rfl⟩ | exact ⟨rfl, trivial⟩
  · simp only [hE, if_false]
    generalize List.map (fun r : Option Dbl => r.getD v.info.worstFitness) i.res = fs
    cases hf : fs[v.info.findBestFitness fs]? with
    | none => cases i.interrupt <;> first | exact ⟨rfl, rfl⟩ | exact ⟨rfl, trivial⟩
    | some f =>
      cases hp : i.pop[v.info.findBestFitness fs]? with
      | none => cases i.interrupt <;> first | exact ⟨rfl, rfl⟩ | exact ⟨rfl, trivial⟩
      | some p =>
        dsimp only
        by_cases hb : v.info.isBetter f v.bestFitness = true
        · by_cases hl : v.bestPoint.length = p.length
          · simp only [hb, hl, if_true]
            cases i.interrupt <;> first | exact ⟨rfl, rfl⟩ | exact ⟨rfl, trivial⟩
          · simp only [hb, hl, if_true, if_false]
            cases i.interrupt <;> first | exact ⟨rfl, rfl⟩ | exact ⟨rfl, trivial⟩
        · simp only [hb]
          cases i.interrupt <;> first | exact ⟨rfl, rfl⟩ | exact ⟨rfl, trivial⟩

theorem bare_begun {s t : Opt} (h : s.bare = t.bare) : s.begun.bare = t.begun.bare := by
  obtain ⟨v, c, st, r, l⟩ := s; obtain ⟨v', c', st', r', l'⟩ := t
  simp only [Opt.bare, Opt.mk.injEq, and_true, true_and] at h
  obtain ⟨rfl, rfl, rfl, rfl⟩ := h
  unfold Opt.begun; dsimp only
  split <;> rfl

theorem bare_step (E : OptEnv) (i : In) {s t : Opt} (h : s.bare = t.bare) :
    (s.step E (Opt.internal E i)).1.bare = (t.step E (Opt.internal E i)).1.bare ∧
    (s.step E (Opt.internal E i)).2 = (t.step E (Opt.internal E i)).2 := by
  have hv : s.vis = t.vis := (Opt.mk.inj h).1
  by_cases hd : s.vis.info.dim = 0
  · have hd' : t.vis.info.dim = 0 := by rw [← hv]; exact hd
    unfold Opt.step; rw [if_pos hd, if_pos hd']; exact ⟨h, rfl⟩
  · have hd' : ¬ t.vis.info.dim = 0 := by rw [← hv]; exact hd
    have hi := bare_internal E i (bare_begun h)
    have e1 : ∀ u : Opt, ¬ u.vis.info.dim = 0 → u.step E (Opt.internal E i) =
        (match Opt.internal E i u.begun with
          | (s, .ok true) => s.ended.testStop E
          | (s, .ok false) => s.testStop E
          | (s, .err) => (s, .err)
          | (s, .ub) => (s, .ub)) := by
      intro u hu; unfold Opt.step; rw [if_neg hu]; rfl
    rw [e1 s hd, e1 t hd']
    cases hs : Opt.internal E i s.begun with
    | mk s' r =>
    cases ht : Opt.internal E i t.begun with
    | mk t' r' =>
    rw [hs, ht] at hi
    obtain ⟨hi1, hi2⟩ := hi
    simp only at hi1 hi2
    subst hi2
    cases r with
    | err => exact ⟨hi1, rfl⟩
    | ub => exact ⟨hi1, rfl⟩
    | ok b =>
      cases b
      · exact bare_testStop E hi1
      · refine bare_testStop E ?_
        unfold Opt.ended Opt.signal Opt.bare
        obtain ⟨v, c, st, r, l⟩ := s'; obtain ⟨v', c', st', r', l'⟩ := t'
        simp only [Opt.bare, Opt.mk.injEq, and_true, true_and] at hi1
        obtain ⟨rfl, rfl, rfl, rfl⟩ := hi1
        rfl

/-- Is this call the addition of a reporter? -/
def Op.isRep : Op → Bool
  | .addRep _ => true
  | _ => false

/-- **C29.** Whatever reporters are attached, whenever, and whatever they throw: visible state, stop conditions, stop and the
signals sent are the same as without any reporter. -/
theorem C29_no_influence (E : OptEnv) (info : ObjInfo) (m : Int) (h : List Op) :
    ((Opt.new info m).after E h).bare = ((Opt.new info m).after E (h.filter fun o => !o.isRep)).bare := by
  have : ∀ (h : List Op) (s t : Opt), s.bare = t.bare → (s.after E h).bare = (t.after E (h.filter fun o => !o.isRep)).bare := by
    intro h
    induction h with
    | nil => intro s t hst; exact hst
    | cons o h ih =>
      intro s t hst
      have keep : (o.apply E s).bare = (o.apply E t).bare → o.isRep = false →
          (s.after E (o :: h)).bare = (t.after E ((o :: h).filter fun o => !o.isRep)).bare := by
        intro h1 h2
        simp only [List.filter_cons, h2, Bool.not_false, if_true]
        exact ih _ _ h1
      cases o with
      | addRep r =>
        simp only [List.filter_cons, Op.isRep, Bool.not_true, Bool.false_eq_true, if_false]
        exact ih _ _ hst
      | step i => exact keep (bare_step E i hst).1 rfl
      | test => exact keep (bare_testStop E hst).1 rfl
      | _ =>
        refine keep ?_ rfl
        obtain ⟨v, c, st, r, l⟩ := s; obtain ⟨v', c', st', r', l'⟩ := t
        simp only [Opt.bare, Opt.mk.injEq, and_true, true_and] at hst
        obtain ⟨rfl, rfl, rfl, rfl⟩ := hst
        rfl
  exact this h _ _ rfl

/-- **C29.** The returned stop conditions are the same, too. -/
theorem C29_same_results (E : OptEnv) (info : ObjInfo) (m : Int) (h : List Op) (i : In) :
    (((Opt.new info m).after E h).step E (Opt.internal E i)).2 =
      (((Opt.new info m).after E (h.filter fun o => !o.isRep)).step E (Opt.internal E i)).2 :=
  (bare_step E i (C29_no_influence E info m h)).2

/-- A reporter receives a call (and may throw then). -/
def Rep.receive (r : Rep) (e : Event × Vis) : Rep := { r with got := r.got ++ [e] }

/-- **C29.** One signal is delivered to the reporters in order of addition, up to and including the first one that throws; the
others do not receive this signal, but all of them receive later ones in the same way. -/
theorem C29_delivery (s : Opt) (e : Event) :
    ∃ a b, s.reps = a ++ b ∧ (s.signal e).reps = a.map (·.receive (e, s.vis)) ++ b ∧
      (∀ r ∈ a.dropLast, r.throws (r.got ++ [(e, s.vis)]) = false) ∧
      (b ≠ [] → ∃ r, a.getLast? = some r ∧ r.throws (r.got ++ [(e, s.vis)]) = true) := by
  have : ∀ (e : Event × Vis) (rs : List Rep), ∃ a b, rs = a ++ b ∧ signalLoop e rs = a.map (·.receive e) ++ b ∧
      (∀ r ∈ a.dropLast, r.throws (r.got ++ [e]) = false) ∧
      (b ≠ [] → ∃ r, a.getLast? = some r ∧ r.throws (r.got ++ [e]) = true) := by
    intro e rs
    induction rs with
    | nil => exact ⟨[], [], rfl, rfl, by simp, by simp⟩
    | cons r rs ih =>
      simp only [signalLoop]
      split
      · rename_i hr
        exact ⟨[r], rs, rfl, rfl, by simp, fun _ => ⟨r, rfl, hr⟩⟩
      · rename_i hr
        obtain ⟨a, b, h1, h2, h3, h4⟩ := ih
        refine ⟨r :: a, b, by rw [h1]; rfl, by rw [h2]; rfl, ?_, ?_⟩
        · intro x hx
          cases a with
          | nil => simp at hx
          | cons y a =>
            rw [List.dropLast_cons_of_ne_nil (by simp)] at hx
            rcases List.mem_cons.1 hx with rfl | hx
            · simpa using hr
            · exact h3 x hx
        · intro hb
          obtain ⟨x, hx, hx'⟩ := h4 hb
          refine ⟨x, ?_, hx'⟩
          cases a with
          | nil => simp at hx
          | cons y a => simpa using hx
  exact this (e, s.vis) s.reps

/-- **C29.** In particular, if no reporter throws, every reporter receives every signal. -/
theorem C29_all_receive (s : Opt) (e : Event) (h : ∀ r ∈ s.reps, r.throws (r.got ++ [(e, s.vis)]) = false) :
    (s.signal e).reps = s.reps.map (·.receive (e, s.vis)) := by
  obtain ⟨a, b, h1, h2, _, h4⟩ := C29_delivery s e
  by_cases hb : b = []
  · subst hb; simp only [List.append_nil] at h1 h2; rw [h2, h1]
  · obtain ⟨r, hr, hr'⟩ := h4 hb
    have := h r (by rw [h1]; exact List.mem_append_left _ (List.mem_of_getLast? hr))
    rw [this] at hr'; simp at hr'

/-! ### What a reporter receives over a whole history -/

/-- The first `k` reporters never throw. -/
def Opt.Quiet (k : Nat) (s : Opt) : Prop := ∀ i < k, ∀ r, s.reps[i]? = some r → ∀ l, r.throws l = false

/-- From `s` to `t` the reporters up to number `k` receive everything that is signalled. -/
def Hears (k : Nat) (s t : Opt) : Prop :=
  ∃ new, t.log = s.log ++ new ∧ ∀ i ≤ k, ∀ r, s.reps[i]? = some r → t.reps[i]? = some { r with got := r.got ++ new }

theorem Hears.refl (k : Nat) (s : Opt) : Hears k s s := ⟨[], by simp, fun i _ r h => by simp [h]⟩

theorem Hears.of_eq {k : Nat} {s t : Opt} (h1 : t.log = s.log) (h2 : t.reps = s.reps) : Hears k s t := ⟨[], by simp [h1], fun i _ r h => by simp [h2, h]⟩

theorem Hears.trans {k : Nat} {s t u : Opt} (h : Hears k s t) (h' : Hears k t u) : Hears k s u := by
  obtain ⟨n1, a1, b1⟩ := h
  obtain ⟨n2, a2, b2⟩ := h'
  exact ⟨n1 ++ n2, by rw [a2, a1, List.append_assoc], fun i hi r hr => by rw [b2 i hi _ (b1 i hi r hr)]; simp⟩

theorem Hears.quiet {k : Nat} {s t : Opt} (h : Hears k s t) (hk : k ≤ s.reps.length) (q : s.Quiet k) : t.Quiet k := by
  obtain ⟨n1, _, b1⟩ := h
  intro i hi r hr l
  have hlt : i < s.reps.length := by omega
  have := b1 i (by omega) s.reps[i] (List.getElem?_eq_getElem hlt)
  rw [hr] at this
  cases this
  exact q i hi _ (List.getElem?_eq_getElem hlt) l

theorem signal_hears (k : Nat) (s : Opt) (e : Event) (q : s.Quiet k) : Hears k s (s.signal e) := by
  refine ⟨[(e, s.vis)], rfl, ?_⟩
  have : ∀ (rs : List Rep) (x : Event × Vis) (k : Nat), (∀ i < k, ∀ r, rs[i]? = some r → ∀ l, r.throws l = false) → ∀ i ≤ k, ∀ r, rs[i]? = some r →
      (signalLoop x rs)[i]? = some { r with got := r.got ++ [x] } := by
    intro rs x
    induction rs with
    | nil => intro k _ i _ r hr; simp at hr
    | cons r0 rs ih =>
      intro k hq i hi r hr
      simp only [signalLoop]
      cases i with
      | zero =>
        simp only [List.getElem?_cons_zero, Option.some.injEq] at hr
        subst hr
        split <;> rfl
      | succ i =>
        rw [hq 0 (by omega) r0 rfl]
        simp only [Bool.false_eq_true, if_false, List.getElem?_cons_succ]
        exact ih (k - 1) (fun j hj r' hr' => hq (j + 1) (by omega) r' hr') i (by omega) r hr
  exact this s.reps (e, s.vis) k q

/-- The number of reporters only changes when one is added. -/
theorem signal_reps_length (s : Opt) (e : Event) : (s.signal e).reps.length = s.reps.length := by
  have : ∀ (rs : List Rep) (x : Event × Vis), (signalLoop x rs).length = rs.length := by
    intro rs x
    induction rs with
    | nil => rfl
    | cons r0 rs ih => simp only [signalLoop]; split <;> simp [ih]
  exact this _ _

/-- Signals are heard and nothing else changes for reporters. -/
def Steps (k : Nat) (s t : Opt) : Prop := t.reps.length = s.reps.length ∧ (k ≤ s.reps.length → s.Quiet k → Hears k s t)

theorem Steps.refl (k : Nat) (s : Opt) : Steps k s s := ⟨rfl, fun _ _ => .refl k s⟩
theorem Steps.of_eq {k : Nat} {s t : Opt} (h1 : t.log = s.log) (h2 : t.reps = s.reps) : Steps k s t := ⟨by rw [h2], fun _ _ => .of_eq h1 h2⟩
theorem Steps.trans {k : Nat} {s t u : Opt} (h : Steps k s t) (h' : Steps k t u) : Steps k s u :=
  ⟨by rw [h'.1, h.1], fun hk q => (h.2 hk q).trans (h'.2 (by rw [h.1]; exact hk) ((h.2 hk q).quiet hk q))⟩
theorem Steps.signal (k : Nat) (s : Opt) (e : Event) : Steps k s (s.signal e) := ⟨signal_reps_length s e, fun _ q => signal_hears k s e q⟩

theorem testStop_steps (k : Nat) (E : OptEnv) (s : Opt) : Steps k s (s.testStop E).1 := by
  unfold Opt.testStop
  split
  · exact .refl k s
  · split
    · rename_i v j heq
      exact Steps.trans (t := { s with vis := v, stopped := some j }) (.of_eq rfl rfl) (.signal k _ _)
    · exact .of_eq rfl rfl

theorem evaluateStep_steps (k : Nat) (E : OptEnv) (s : Opt) (pop : List Pt) (res : List (Option Dbl)) : Steps k s (s.evaluateStep E pop res).1 := by
  have h0 : Steps k s (s.signal (.preEvaluate pop)) := .signal k s _
  unfold Opt.evaluateStep
  dsimp only
  generalize s.signal (.preEvaluate pop) = s1 at h0 ⊢
  split
  · exact h0.trans (.of_eq rfl rfl)
  · split
    · rename_i f p hf hp
      generalize hfs : List.map (fun r : Option Dbl => r.getD s1.vis.info.worstFitness) res = fs
      set s2 : Opt := { s1 with vis := { s1.vis with curFitnesses := fs, curFitness := f, curPoint := p } } with hs2
      have h2 : Steps k s s2 := h0.trans (.of_eq rfl rfl)
      by_cases hb : s1.vis.info.isBetter f s1.vis.bestFitness = true
      · by_cases hl : s1.vis.bestPoint.length = p.length
        · simp only [hb, hl, if_true]
          refine h2.trans (Steps.trans (t := { s2 with vis := { s2.vis with bestFitness := f, bestPoint := p.map rounded } }) (.of_eq rfl rfl) ?_)
          exact Steps.trans (.signal k _ (.newBest (p.map rounded) f)) (Steps.trans (.of_eq rfl rfl) (.signal k _ _))
        · simp only [hb, hl, if_true, if_false]
          exact h2
      · simp only [hb]
        exact h2.trans (Steps.trans (.of_eq rfl rfl) (.signal k _ _))
    · exact h0

theorem step_steps (k : Nat) (E : OptEnv) (i : In) (s : Opt) : Steps k s (s.step E (Opt.internal E i)).1 := by
  unfold Opt.step
  split
  · exact .refl k s
  · dsimp only
    have h1 : Steps k s (if s.vis.stepCount = 0 then s.signal .start else s) := by split; exacts [.signal k _ _, .refl k s]
    have h2 := h1.trans (Steps.signal k _ .preStep)
    generalize (if s.vis.stepCount = 0 then s.signal .start else s).signal .preStep = s2 at h2 ⊢
    have h3 : Steps k s (Opt.internal E i s2).1 := by
      refine h2.trans ((evaluateStep_steps k E s2 i.pop i.res).trans ?_)
      unfold Opt.internal
      dsimp only
      split
      · exact .of_eq rfl rfl
      · exact .refl k _
    cases hi : Opt.internal E i s2 with
    | mk s3 r =>
      rw [hi] at h3
      cases r with
      | err => exact h3
      | ub => exact h3
      | ok b =>
        cases b
        · exact h3.trans (testStop_steps k E s3)
        · exact h3.trans ((Steps.signal k s3 .postStep).trans (Steps.trans (.of_eq rfl rfl) (testStop_steps k E _)))

/-- The number of reporters added in a history. -/
def addedReps (h : List Op) : Nat := h.countP Op.isRep

theorem after_reps_length (E : OptEnv) : ∀ (h : List Op) (s : Opt), (s.after E h).reps.length = s.reps.length + addedReps h
  | [], s => rfl
  | o :: h, s => by
    show ((o.apply E s).after E h).reps.length = _
    rw [after_reps_length E h]
    have : (o.apply E s).reps.length = s.reps.length + if o.isRep then 1 else 0 := by
      cases o with
      | addRep t => simp [Op.apply, Op.isRep]
      | step i => show (s.step E (Opt.internal E i)).1.reps.length = _; rw [(step_steps 0 E i s).1]; simp [Op.isRep]
      | test => show (s.testStop E).1.reps.length = _; rw [(testStop_steps 0 E s).1]; simp [Op.isRep]
      | _ => rfl
    rw [this]
    unfold addedReps
    rw [List.countP_cons]
    omega

theorem after_hears (E : OptEnv) (k : Nat) : ∀ (h : List Op) (s : Opt), k < s.reps.length → s.Quiet k → Hears k s (s.after E h)
  | [], s, _, _ => .refl k s
  | o :: h, s, hk, q => by
    have h1 : Hears k s (o.apply E s) := by
      cases o with
      | addRep t =>
        refine ⟨[], by simp [Op.apply], fun i hi r hr => ?_⟩
        show (s.reps ++ [_])[i]? = _
        rw [List.getElem?_append_left (List.getElem?_eq_some_iff.1 hr).1, hr]
        simp
      | step i => exact (step_steps k E i s).2 hk.le q
      | test => exact (testStop_steps k E s).2 hk.le q
      | _ => exact .of_eq rfl rfl
    refine h1.trans (after_hears E k h _ ?_ (h1.quiet hk.le q))
    obtain ⟨n, _, b⟩ := h1
    exact (List.getElem?_eq_some_iff.1 (b k le_rfl s.reps[k] (List.getElem?_eq_getElem hk))).1

/-- **C29.** A reporter that is added after the calls `h0` has received, after any further calls `h`, exactly the callbacks signalled since it was added, in order, if no reporter that was
added before it ever throws; whatever it throws itself, and whatever is added after it. -/
theorem C29_history (E : OptEnv) (info : ObjInfo) (m : Int) (h0 h : List Op) (throws : List (Event × Vis) → Bool)
    (hq : ∀ t, Op.addRep t ∈ h0 → ∀ l, t l = false) :
    ∃ new, ((Opt.new info m).after E (h0 ++ .addRep throws :: h)).log = ((Opt.new info m).after E h0).log ++ new ∧
      ((Opt.new info m).after E (h0 ++ .addRep throws :: h)).reps[addedReps h0]? = some { throws := throws, got := new } := by
  set s0 := (Opt.new info m).after E h0 with hs0
  have hlen : s0.reps.length = addedReps h0 := by rw [hs0, after_reps_length]; simp [Opt.new, Opt.init, Opt.addCond]
  set s1 : Opt := { s0 with reps := s0.reps ++ [{ throws := throws }] } with hs1
  have hafter : (Opt.new info m).after E (h0 ++ .addRep throws :: h) = s1.after E h := by
    unfold Opt.after; rw [List.foldl_append]; rfl
  have hall : ∀ (h : List Op) (s : Opt), (∀ t, Op.addRep t ∈ h → ∀ l, t l = false) → (∀ r ∈ s.reps, ∀ l, r.throws l = false) →
      ∀ r ∈ (s.after E h).reps, ∀ l, r.throws l = false := by
    intro h
    induction h with
    | nil => intro s _ hs; exact hs
    | cons o h ih =>
      intro s ho hs
      refine ih (o.apply E s) (fun t ht => ho t (List.mem_cons_of_mem _ ht)) ?_
      have keep : ∀ t : Opt, Steps s.reps.length s t → ∀ r ∈ t.reps, ∀ l, r.throws l = false := by
        intro t ht r hr l
        have hquiet : s.Quiet s.reps.length := fun i _ r hr => hs r (List.mem_of_getElem? hr)
        obtain ⟨i, hi⟩ := List.getElem?_of_mem hr
        have hlt : i < s.reps.length := by rw [← ht.1]; exact (List.getElem?_eq_some_iff.1 hi).1
        exact (ht.2 le_rfl hquiet).quiet le_rfl hquiet i hlt r hi l
      cases o with
      | addRep t =>
        intro r hr
        rcases List.mem_append.1 hr with hr | hr
        · exact hs r hr
        · rw [List.mem_singleton] at hr; subst hr; exact ho t (List.mem_cons_self ..)
      | step i => exact keep _ (step_steps _ E i s)
      | test => exact keep _ (testStop_steps _ E s)
      | _ => exact hs
  have hquiet : s1.Quiet (addedReps h0) := by
    intro i hi r hr
    have : s0.reps[i]? = some r := by
      rw [← hlen] at hi
      rwa [hs1, List.getElem?_append_left hi] at hr
    exact hall h0 _ hq (by simp [Opt.new, Opt.init, Opt.addCond]) r (List.mem_of_getElem? this)
  have hk : addedReps h0 < s1.reps.length := by rw [hs1]; simp [hlen]
  obtain ⟨new, a, b⟩ := after_hears E _ h s1 hk hquiet
  refine ⟨new, by rw [hafter]; exact a, ?_⟩
  rw [hafter, b _ le_rfl { throws := throws } (by rw [hs1]; simp [← hlen])]
  rfl

/-- Three reporters; the second one throws on `on_start`: the third one misses that signal only. -/
example : let t : List (Event × Vis) → Bool := fun l => l.any (fun e => e.1 = .start) && l.length = 1
    (((Opt.new optInfo 0).after optEnv [.addRep (fun _ => false), .addRep t, .addRep (fun _ => false),
      .step { pop := [[.fin 1]], res := [none] }]).reps.map fun r => r.got.map Prod.fst) =
    [[.start, .preStep, .preEvaluate [[.fin 1]], .stop 1], [.start, .preStep, .preEvaluate [[.fin 1]], .stop 1],
     [.preStep, .preEvaluate [[.fin 1]], .stop 1]] := by decide +kernel

end Spot
