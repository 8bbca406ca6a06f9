import Verif.Props.Reproduce
import Verif.Props.FileCrash

/-!
# C119: continuing after a crash

The process dies at any moment (C115). In the folder there is a par file from which a best at least as good as all those announced before is read exactly.
-/

namespace Spot

/-! ## The bests announced in a history -/

/-- A call of an optimizer announces its new best, or leaves the best as it is. -/
theorem announces (E : OptEnv) (info : ObjInfo) (m : Int) (hd : info.dim ≠ 0) (h : List Op) (o : Op) (hv : ∀ o ∈ h, o.Valid info) (ho : o.Valid info) :
    let s := (Opt.new info m).after E h
    let t := (Opt.new info m).after E (h ++ [o])
    (t.log.filterMap newBestOf = s.log.filterMap newBestOf ∧ t.vis.bestFitness = s.vis.bestFitness) ∨
    (t.log.filterMap newBestOf = s.log.filterMap newBestOf ++ [(t.vis.bestPoint, t.vis.bestFitness)] ∧ info.isBetter t.vis.bestFitness s.vis.bestFitness = true) := by
  have hw := (history_facts E info m hd h hv).1
  rw [after_append]
  have e0 : (((Opt.new info m).after E h).after E [o]) = o.apply E ((Opt.new info m).after E h) := rfl
  rw [e0]
  dsimp only
  have hc := apply_core E ((Opt.new info m).after E h) o hd hw ho
  obtain ⟨-, -, c3, -, -⟩ := core_ext hc
  by_cases hs : ∃ i, o = .step i
  · obtain ⟨i, rfl⟩ := hs
    obtain ⟨new, e1, -, stop, -, -, e2, -⟩ := C28_protocol E info m hd h i hv ho
    have e3 := newBests_protocol _ _ _ _ _ _ _ _ _ e2
    have ea : ((Op.step i).apply E ((Opt.new info m).after E h)) = (((Opt.new info m).after E h).step E (Opt.internal E i)).1 := rfl
    rw [ea] at c3 ⊢
    generalize (((Opt.new info m).after E h).step E (Opt.internal E i)).1 = t at *
    generalize (Opt.new info m).after E h = s at *
    rw [e1, List.filterMap_append, e3]
    by_cases hcase : (!decide (i.Failed m) && info.isBetter t.vis.bestFitness s.vis.bestFitness) = true
    · rw [if_pos hcase]
      exact .inr ⟨rfl, (Bool.and_eq_true_iff.1 hcase).2⟩
    · rw [if_neg hcase, List.append_nil]
      refine .inl ⟨rfl, ?_⟩
      have h4 : (Op.onVis E s.vis (.step i)) = s.vis.stepped E i := rfl
      rw [h4] at c3
      by_cases hf : i.Failed s.vis.maxErrors
      · rw [stepped_failed E hf] at c3
        rw [c3]
        cases i.interrupt <;> rfl
      · obtain ⟨d1, -, -⟩ := stepped_completed E hf
        rw [d1] at c3
        rw [hw.maxErr] at hf
        have hb : ¬ info.isBetter t.vis.bestFitness s.vis.bestFitness = true := by
          intro hh; apply hcase; simp [hf, hh]
        by_cases hb2 : s.vis.info.isBetter (i.best s.vis.info) s.vis.bestFitness = true
        · rw [if_pos hb2] at c3
          rw [← c3, hw.info_eq] at hb2
          exact absurd hb2 hb
        · rw [if_neg hb2] at c3
          exact c3
  · push Not at hs
    left
    have hlog : (o.apply E ((Opt.new info m).after E h)).log.filterMap newBestOf = ((Opt.new info m).after E h).log.filterMap newBestOf := by
      rcases C28_only_steps E ((Opt.new info m).after E h) o hs with e | ⟨k, v, -, -, e⟩
      · rw [e]
      · rw [e, List.filterMap_append]; simp [newBestOf]
    have hkeep : (Op.onVis E ((Opt.new info m).after E h).vis o).bestFitness = ((Opt.new info m).after E h).vis.bestFitness := by
      cases o with
      | step i => exact absurd rfl (hs i)
      | addCond c => unfold Op.onVis; dsimp only; split <;> rfl
      | _ => rfl
    rw [hlog, c3, hkeep]
    exact ⟨rfl, rfl⟩

/-- Each best that was announced is better than those before it, and was the best of the optimizer after a beginning of the history. -/
theorem announced_bests (E : OptEnv) (info : ObjInfo) (m : Int) (hd : info.dim ≠ 0) (h : List Op) (hv : ∀ o ∈ h, o.Valid info) :
    let s := (Opt.new info m).after E h
    (s.log.filterMap newBestOf).Pairwise (fun a b => info.isBetter b.2 a.2 = true) ∧
    (∀ a ∈ s.log.filterMap newBestOf, a.2 = s.vis.bestFitness ∨ info.isBetter s.vis.bestFitness a.2 = true) ∧
    (s.vis.bestFitness = info.worstFitness ∨ info.isBetter s.vis.bestFitness info.worstFitness = true) ∧
    ∀ a ∈ s.log.filterMap newBestOf, info.isBetter a.2 info.worstFitness = true ∧
      ∃ h1, h1 <+: h ∧ ((Opt.new info m).after E h1).vis.bestPoint = a.1 ∧ ((Opt.new info m).after E h1).vis.bestFitness = a.2 := by
  induction h using List.reverseRecOn with
  | nil => exact ⟨.nil, by simp [Opt.after, Opt.new, Opt.init, Opt.addCond, Cond.minWindow], .inl (by simp [Opt.after, Opt.new, Opt.init, Opt.addCond, Cond.minWindow]),
      by simp [Opt.after, Opt.new, Opt.init, Opt.addCond, Cond.minWindow]⟩
  | append_singleton h o ih =>
    have hvh : ∀ o ∈ h, o.Valid info := fun o ho => hv o (by simp [ho])
    obtain ⟨i1, i2, i3, i4⟩ := ih hvh
    have hst := announces E info m hd h o hvh (hv o (by simp))
    dsimp only at hst i1 i2 i3 i4 ⊢
    have hpre : h <+: h ++ [o] := List.prefix_append _ _
    generalize ht : (Opt.new info m).after E (h ++ [o]) = t at hst ⊢
    generalize (Opt.new info m).after E h = s at hst i1 i2 i3 i4
    rcases hst with ⟨e1, e2⟩ | ⟨e1, e2⟩
    · rw [e1, e2]
      refine ⟨i1, i2, i3, fun a ha => ?_⟩
      obtain ⟨h0, h1, h2, h3⟩ := i4 a ha
      exact ⟨h0, h1, h2.trans hpre, h3⟩
    · have hall : ∀ a ∈ s.log.filterMap newBestOf, info.isBetter t.vis.bestFitness a.2 = true := by
        intro a ha
        rcases i2 a ha with h | h
        · rw [h]; exact e2
        · exact better_trans e2 h
      have hwst : info.isBetter t.vis.bestFitness info.worstFitness = true := by
        rcases i3 with h | h
        · rw [← h]; exact e2
        · exact better_trans e2 h
      rw [e1]
      refine ⟨?_, ?_, .inr hwst, ?_⟩
      · rw [List.pairwise_append]
        exact ⟨i1, by simp, fun a ha b hb => by rw [List.mem_singleton.1 hb]; exact hall a ha⟩
      · intro a ha
        rcases List.mem_append.1 ha with ha | ha
        · exact .inr (hall a ha)
        · rw [List.mem_singleton.1 ha]; exact .inl rfl
      · intro a ha
        rcases List.mem_append.1 ha with ha | ha
        · obtain ⟨h0, h1, h2, h3⟩ := i4 a ha
          exact ⟨h0, h1, h2.trans hpre, h3⟩
        · rw [List.mem_singleton.1 ha]
          exact ⟨hwst, h ++ [o], List.prefix_refl _, by rw [ht], by rw [ht]⟩

/-! ## Recovery -/

/-- In the folder `fs` there is a par file that gives the best `q`, `f` announced in the call `w` to every reader. -/
def RecoverAs (c : FileCfg) (info : ObjInfo) (fs : Str → Option Str) (w : Call) (q : Pt) (f : Dbl) : Prop :=
  w.event = .newBest q f ∧ ∃ text, fs (c.parName w.vis) = some text ∧ Reproduces text info w.upd q

/-- What a reporter heard is part of what was announced. -/
theorem bests_announced {E : OptEnv} {info : ObjInfo} {m : Int} {h0 h : List Op} {xs : List Call} (hx : Receives E info m h0 h xs) {y : Call} (hy : y ∈ bests xs) :
    ∃ q f, y.event = .newBest q f ∧ (q, f) ∈ ((Opt.new info m).after E (h0 ++ h)).log.filterMap newBestOf := by
  obtain ⟨hy1, hy2⟩ := List.mem_filter.1 hy
  obtain ⟨q, f, he⟩ : ∃ q f, y.event = .newBest q f := by
    unfold Call.isBest at hy2
    cases he : y.event <;> rw [he] at hy2 <;> simp at hy2
    exact ⟨_, _, rfl⟩
  refine ⟨q, f, he, List.mem_filterMap.2 ⟨(y.event, y.vis), ?_, by rw [he]; rfl⟩⟩
  unfold Receives at hx
  rw [hx]
  exact List.mem_append_right _ (List.mem_map.2 ⟨y, hy1, rfl⟩)

/-- **C119.** The process dies in any callback `x` of any history, at any moment, with any part of the output still in buffers. If a best was announced before, there is a par file in the folder
that gives a best to every reader exactly: a best `q` with fitness `f` that was announced before or is just being announced, than which none announced before is better. Reading it
continues the optimization as after a normal end (`Reproduces`). -/
theorem C119_recover (c : FileCfg) (E : OptEnv) (info : ObjInfo) (m : Int) (hd : info.dim ≠ 0) (hu : NamesUnique info) (hn : ∀ p ∈ info.pars, FileName p.name)
    (hmean : ∀ p ∈ info.pars, ∀ q : ℚ, p.mean = .fin q → |q| ≤ Dbl.maxQ) (h0 h : List Op) (hv : ∀ o ∈ h0 ++ h, o.Valid info) (hq : DoublePoints (h0 ++ h))
    (hm : 1 ≤ c.maxSteps) (hf : c.fmt = fmt8) (pre : List Call) (x : Call) (post : List Call) (hx : Receives E info m h0 h (pre ++ x :: post))
    (hup : ∀ y ∈ pre ++ x :: post, Continues info y.upd) (fs : Str → Option Str) (r : FileRep) (hr : FileRep.Runs false c E { files := fs } pre r) (fs' : Str → Option Str)
    (hc : r.Crash false c x fs') (hb : bests pre ≠ []) :
    ∃ w ∈ pre ++ [x], ∃ q f, RecoverAs c info fs' w q f ∧ ∀ y ∈ pre, ∀ q' f', y.event = .newBest q' f' → info.isBetter f' f = false := by
  obtain ⟨-, -, hz⟩ := C115_crash c E info m hd h0 h hv hm pre x post hx (fun y hy => (hup y hy).dim_eq) fs r hr fs' hc
  obtain ⟨z, hz1⟩ : ∃ z, (bests pre).getLast? = some z := ⟨_, List.getLast?_eq_some_getLast hb⟩
  obtain ⟨p1, -, -, p4⟩ := announced_bests E info m hd (h0 ++ h) hv
  have hmem : ∀ y ∈ bests (pre ++ [x]), y ∈ bests (pre ++ x :: post) := by
    intro y hy
    obtain ⟨a, b⟩ := List.mem_filter.1 hy
    refine List.mem_filter.2 ⟨?_, b⟩
    rcases List.mem_append.1 a with a | a
    · exact List.mem_append_left _ a
    · rw [List.mem_singleton.1 a]; simp
  -- a kept file of an announced best reproduces it
  have hkept : ∀ w ∈ bests (pre ++ [x]), w.Kept c fs' → ∃ q f, RecoverAs c info fs' w q f := by
    intro w hw ⟨q, f, he, hfile⟩
    obtain ⟨q', f', he', ha⟩ := bests_announced hx (hmem w hw)
    rw [he] at he'
    obtain ⟨rfl, rfl⟩ := Event.newBest.inj he'
    obtain ⟨-, h1, hp, hq1, -⟩ := p4 _ ha
    obtain ⟨hl, hst⟩ := best_stored E info m hd h1 (fun o ho => hv o (hp.subset ho)) (fun i hi => hq i (hp.subset hi)) hmean
    dsimp only at hl hst hq1
    rw [hq1] at hl hst
    refine ⟨q, f, he, _, hfile, ?_⟩
    rw [hf]
    exact saved_reproduces hd hu (hup w (List.mem_filter.1 (hmem w hw)).1) hn hl hst
  -- later bests are better
  have hsort : ∀ l1 l2 : List Call, l1 ++ l2 = pre ++ x :: post → ∀ a ∈ l1, ∀ b ∈ l2, ∀ q f q' f', a.event = .newBest q f → b.event = .newBest q' f' → info.isBetter f' f = true := by
    intro l1 l2 hl a ha b hb q f q' f' hea heb
    have := p1
    unfold Receives at hx
    rw [hx, ← hl, List.map_append, List.filterMap_append, List.filterMap_append, List.pairwise_append] at this
    obtain ⟨-, h2, -⟩ := this
    rw [List.pairwise_append] at h2
    refine h2.2.2 (q, f) (List.mem_filterMap.2 ⟨(a.event, a.vis), List.mem_map.2 ⟨a, ha, rfl⟩, by rw [hea]; rfl⟩) (q', f')
      (List.mem_filterMap.2 ⟨(b.event, b.vis), List.mem_map.2 ⟨b, hb, rfl⟩, by rw [heb]; rfl⟩)
  have hasym : ∀ a b : Dbl, info.isBetter a b = true → info.isBetter b a = false := by
    intro a b hab
    by_contra hba
    rw [Bool.not_eq_false] at hba
    have := better_trans hab hba
    rw [better_irrefl] at this
    cases this
  have hzm : z ∈ bests pre := List.mem_of_getLast? hz1
  have hbp : bests (pre ++ [x]) = bests pre ++ bests [x] := List.filter_append ..
  rcases hz z hz1 with hk | ⟨-, hk, -⟩
  · obtain ⟨q, f, hrec⟩ := hkept z (by rw [hbp]; exact List.mem_append_left _ hzm) hk
    refine ⟨z, List.mem_append_left _ (List.mem_filter.1 hzm).1, q, f, hrec, fun y hy q' f' he => ?_⟩
    -- split the calls at `z`
    obtain ⟨b0, hb0⟩ : ∃ b0, bests pre = b0 ++ [z] := by
      have := List.getLast?_eq_some_iff.1 hz1
      exact this
    have hyb : y ∈ bests pre := List.mem_filter.2 ⟨hy, by unfold Call.isBest; rw [he]⟩
    have hpw : ((bests pre).filterMap fun y => newBestOf (y.event, y.vis)).Pairwise (fun a b => info.isBetter b.2 a.2 = true) := by
      have h2 := p1
      unfold Receives at hx
      rw [hx, List.map_append, List.filterMap_append, List.filterMap_append, List.pairwise_append] at h2
      have h3 := h2.2.1
      rw [List.pairwise_append] at h3
      refine h3.1.sublist ?_
      rw [List.filterMap_map]
      exact List.Sublist.filterMap _ List.filter_sublist
    rw [hb0] at hyb hpw
    rcases List.mem_append.1 hyb with hyb | hyb
    · rw [List.filterMap_append, List.pairwise_append] at hpw
      exact hasym _ _ (hpw.2.2 (q', f') (List.mem_filterMap.2 ⟨y, hyb, by rw [he]; rfl⟩) (q, f) (List.mem_filterMap.2 ⟨z, by simp, by rw [hrec.1]; rfl⟩))
    · rw [List.mem_singleton.1 hyb, hrec.1] at he
      obtain ⟨rfl, rfl⟩ := Event.newBest.inj he
      exact better_irrefl _ _
  · have hk' := hk
    obtain ⟨q, f, he, -⟩ := hk'
    have hxb : x ∈ bests (pre ++ [x]) := by
      rw [hbp]
      exact List.mem_append_right _ (List.mem_filter.2 ⟨by simp, by unfold Call.isBest; rw [he]⟩)
    obtain ⟨q, f, hrec⟩ := hkept x hxb hk
    exact ⟨x, by simp, q, f, hrec, fun y hy q' f' hey => hasym _ _ (hsort pre (x :: post) rfl y hy x (by simp) _ _ _ _ hey hrec.1)⟩

/-! ## Sessions of the algorithms -/

theorem session_prefix {S : Type} {M : Machine S} {E : OptEnv} {F : Pt → Option Dbl} {s t : S} {l : List Op} (h : M.Session E F s l t) :
    ∀ {l1 : List Op}, l1 <+: l → ∃ u, M.Session E F s l1 u := by
  induction h with
  | nil => intro l1 hp; rw [List.prefix_nil.1 hp]; exact ⟨_, .nil⟩
  | step h st ih =>
    intro l1 hp
    rcases List.prefix_concat_iff.1 hp with rfl | hp
    · exact ⟨_, .step h st⟩
    · exact ih hp
  | call h ho ih =>
    intro l1 hp
    rcases List.prefix_concat_iff.1 hp with rfl | hp
    · exact ⟨_, .call h ho⟩
    · exact ih hp

/-- A run of an algorithm with a file reporter that was added at the start is killed in the callback `x`: see `C119_recover`; and the recovered point was evaluated, has the fitness `f` and is
within the bounds. -/
theorem Machine.Good.recover [Libm] {S : Type} {E : OptEnv} {F : Pt → Option Dbl} {M : Machine S} {info : ObjInfo} {nan : Prop} (hM : M.Good E F info nan) (hd : info.dim ≠ 0)
    (hF : ∀ x, F x ≠ some .nan) (hu : NamesUnique info) (hn : ∀ p ∈ info.pars, FileName p.name) (hmean : ∀ p ∈ info.pars, ∀ q : ℚ, p.mean = .fin q → |q| ≤ Dbl.maxQ)
    {s t : S} (h0 : Fresh info (M.opt s)) {l : List Op} (h : M.Session E F s l t) (hq : DoublePoints l) (c : FileCfg) (hm : 1 ≤ c.maxSteps) (hf : c.fmt = fmt8)
    (pre : List Call) (x : Call) (post : List Call) (hx : (M.opt t).log = (pre ++ x :: post).map fun x => (x.event, x.vis)) (hup : ∀ y ∈ pre ++ x :: post, Continues info y.upd)
    (fs : Str → Option Str) (r : FileRep) (hr : FileRep.Runs false c E { files := fs } pre r) (fs' : Str → Option Str) (hc : r.Crash false c x fs') (hb : bests pre ≠ []) :
    ∃ w ∈ pre ++ [x], ∃ q f, RecoverAs c info fs' w q f ∧ (∀ y ∈ pre, ∀ q' f', y.event = .newBest q' f' → info.isBetter f' f = false) ∧
      F q = some f ∧ EvaluatedWithin nan info q := by
  obtain ⟨h1, -⟩ := hM.session h
  have hval := hM.valid h
  rw [fresh_after h0] at h1
  have hv : ∀ o ∈ [Op.addCond (.flat (lit (1 / 10 ^ 9)))] ++ l, o.Valid info := by
    intro o ho
    rcases List.mem_append.1 ho with ho | ho
    · rw [List.mem_singleton] at ho; subst ho; trivial
    · exact hval o ho
  have hq' : DoublePoints ([Op.addCond (.flat (lit (1 / 10 ^ 9)))] ++ l) := by
    intro i hi
    rcases List.mem_append.1 hi with hi | hi
    · rw [List.mem_singleton] at hi; cases hi
    · exact hq i hi
  have hrc : Receives E info 0 [Op.addCond (.flat (lit (1 / 10 ^ 9)))] l (pre ++ x :: post) := by
    unfold Receives
    have e : ((Opt.new info 0).after E [Op.addCond (.flat (lit (1 / 10 ^ 9)))]).log = [] := rfl
    rw [e, List.nil_append, ← hx, h1]
    rfl
  obtain ⟨w, hw, q, f, hrec, hbest⟩ := C119_recover c E info 0 hd hu hn hmean _ l hv hq' hm hf pre x post hrc hup fs r hr fs' hc hb
  refine ⟨w, hw, q, f, hrec, hbest, ?_⟩
  have hwb : w ∈ bests (pre ++ x :: post) := by
    refine List.mem_filter.2 ⟨?_, by unfold Call.isBest; rw [hrec.1]⟩
    rcases List.mem_append.1 hw with a | a
    · exact List.mem_append_left _ a
    · rw [List.mem_singleton.1 a]; simp
  obtain ⟨q', f', he', ha⟩ := bests_announced hrc hwb
  rw [hrec.1] at he'
  obtain ⟨rfl, rfl⟩ := Event.newBest.inj he'
  obtain ⟨-, -, -, p4⟩ := announced_bests E info 0 hd ([Op.addCond (.flat (lit (1 / 10 ^ 9)))] ++ l) hv
  obtain ⟨hne, hh, hp, e1, e2⟩ := p4 _ ha
  have hfw : f ≠ info.worstFitness := by
    intro e
    dsimp only at hne
    rw [e, better_irrefl] at hne
    cases hne
  -- the beginning of the history in which it was the best
  have hsess : ∃ l1 u, M.Session E F s l1 u ∧ (M.opt u).vis.bestPoint = q ∧ (M.opt u).vis.bestFitness = f := by
    cases hh with
    | nil =>
      refine absurd e2.symm (fun e => hfw (e.trans ?_))
      simp [Opt.after, Opt.new, Opt.init, Opt.addCond, Cond.minWindow]
    | cons o l1 =>
      obtain ⟨rfl, hp1⟩ := List.cons_prefix_cons.1 hp
      obtain ⟨u, hs1⟩ := session_prefix h hp1
      obtain ⟨g1, -⟩ := hM.session hs1
      rw [fresh_after h0] at g1
      exact ⟨l1, u, hs1, by rw [g1]; exact e1, by rw [g1]; exact e2⟩
  obtain ⟨l1, u, hs1, hq1, hf1⟩ := hsess
  have hsol := hM.result hd hF h0 hs1
  rcases hsol.2 with ⟨h2, -⟩ | ⟨h2, h3, -⟩
  · rw [hf1] at h2; exact absurd h2 hfw
  · rw [hq1, hf1] at h2; rw [hq1] at h3
    exact ⟨h2, h3⟩

/-- **C119** for MES and EVA: the recovered point was evaluated, has the recovered fitness and is within the bounds. -/
theorem C119_mes_eva [Libm] {R : Rng Dbl} (hR : R.NoNaN) (E : OptEnv) (info : ObjInfo) (hd : info.dim ≠ 0) (hv : ∀ p ∈ info.pars, p.isValid = true) (c : EsCfg R info.dim)
    (hc : c.bounds = Bounds.ofInfo info) (hl : 1 ≤ c.lambda) (h0 : 0 ≤ c.mu) (h1 : c.mu ≤ c.lambda) (F : Pt → Option Dbl) (hF : ∀ x, F x ≠ some .nan) (e : R.Eng)
    (hu : NamesUnique info) (hn : ∀ p ∈ info.pars, FileName p.name) (hmean : ∀ p ∈ info.pars, ∀ q : ℚ, p.mean = .fin q → |q| ≤ Dbl.maxQ)
    {l : List Op} {t : EsOpt R info.dim} (h : (esMachine E c).Session E F (EsOpt.make info e) l t) (hq : DoublePoints l) (g : FileCfg) (hm : 1 ≤ g.maxSteps) (hf : g.fmt = fmt8)
    (pre : List Call) (x : Call) (post : List Call) (hx : t.opt.log = (pre ++ x :: post).map fun x => (x.event, x.vis)) (hup : ∀ y ∈ pre ++ x :: post, Continues info y.upd)
    (fs : Str → Option Str) (r : FileRep) (hr : FileRep.Runs false g E { files := fs } pre r) (fs' : Str → Option Str) (hcr : r.Crash false g x fs') (hb : bests pre ≠ []) :
    ∃ w ∈ pre ++ [x], ∃ q f, RecoverAs g info fs' w q f ∧ (∀ y ∈ pre, ∀ q' f', y.event = .newBest q' f' → info.isBetter f' f = false) ∧
      F q = some f ∧ EvaluatedWithin False info q :=
  (es_good hR E info hv c hc hl h0 h1 F).recover hd hF hu hn hmean (show Fresh info ((esMachine E c).opt (EsOpt.make info e)) from rfl) h hq g hm hf pre x post hx hup fs r hr fs' hcr hb

/-- **C119** for CMA. -/
theorem C119_cma [Libm] {G : GaussSrc Dbl} (E : OptEnv) (info : ObjInfo) (hd : info.dim ≠ 0) (hv : ∀ p ∈ info.pars, p.isValid = true) (c : CmaCfg info.dim)
    (hc : c.bounds = Bounds.ofInfo info) (hl : 1 ≤ c.par.lambda) (F : Pt → Option Dbl) (hF : ∀ x, F x ≠ some .nan) (opt : Int) (modulo : Dbl) (rng : G.St) (s0 : CmaOpt G info.dim)
    (hs0 : CmaOpt.make info opt modulo rng = .ok (c.par, s0))
    (hu : NamesUnique info) (hn : ∀ p ∈ info.pars, FileName p.name) (hmean : ∀ p ∈ info.pars, ∀ q : ℚ, p.mean = .fin q → |q| ≤ Dbl.maxQ)
    {l : List Op} {t : CmaOpt G info.dim} (h : (cmaMachine E c).Session E F s0 l t) (hq : DoublePoints l) (g : FileCfg) (hm : 1 ≤ g.maxSteps) (hf : g.fmt = fmt8)
    (pre : List Call) (x : Call) (post : List Call) (hx : t.opt.log = (pre ++ x :: post).map fun x => (x.event, x.vis)) (hup : ∀ y ∈ pre ++ x :: post, Continues info y.upd)
    (fs : Str → Option Str) (r : FileRep) (hr : FileRep.Runs false g E { files := fs } pre r) (fs' : Str → Option Str) (hcr : r.Crash false g x fs') (hb : bests pre ≠ []) :
    ∃ w ∈ pre ++ [x], ∃ q f, RecoverAs g info fs' w q f ∧ (∀ y ∈ pre, ∀ q' f', y.event = .newBest q' f' → info.isBetter f' f = false) ∧
      F q = some f ∧ EvaluatedWithin True info q :=
  (cma_good (G := G) E info hd hv c hc hl F).recover hd hF hu hn hmean (make_ok hs0).1 h hq g hm hf pre x post hx hup fs r hr fs' hcr hb

/-! ## A concrete case -/

theorem recover_runs : ∃ r, FileRep.run reproCfg optEnv { files := fun _ => none } (reproCalls.take 8) = .ok r := by
  have : (match FileRep.run reproCfg optEnv { files := fun _ => none } (reproCalls.take 8) with | .ok _ => true | _ => false) = true := by decide +kernel
  generalize FileRep.run reproCfg optEnv { files := fun _ => none } (reproCalls.take 8) = y at this
  cases y <;> simp at this
  exact ⟨_, rfl⟩

theorem recover_calls : ∃ (x : Call) (post : List Call) (sp : SearchPoint), reproCalls = reproCalls.take 8 ++ x :: post ∧ (∃ q f, x.event = .newBest q f) ∧
    SearchPoint.ofValues x.upd x.vis.curPoint = .ok sp := by
  have h1 : (match reproCalls.drop 8 with | x :: _ => x.isBest && (match SearchPoint.ofValues x.upd x.vis.curPoint with | .ok _ => true | _ => false) | _ => false) = true := by decide +kernel
  have h2 : reproCalls = reproCalls.take 8 ++ reproCalls.drop 8 := (List.take_append_drop _ _).symm
  generalize reproCalls.drop 8 = y at h1 h2
  cases y with
  | nil => simp at h1
  | cons x post =>
    obtain ⟨h3, h4⟩ := Bool.and_eq_true_iff.1 h1
    cases hs : SearchPoint.ofValues x.upd x.vis.curPoint with
    | ok sp =>
      refine ⟨x, post, sp, h2, ?_, hs⟩
      unfold Call.isBest at h3
      cases he : x.event <;> rw [he] at h3 <;> simp at h3
      exact ⟨_, _, rfl⟩
    | err => rw [hs] at h4; simp at h4
    | ub => rw [hs] at h4; simp at h4

/-- The hypotheses of `C119_recover` (with those shown for `C109_best_file`): the process dies when the second best of `reproHist` is announced; the file of it is there, but empty. -/
example : ∃ (pre : List Call) (x : Call) (post : List Call) (r : FileRep) (fs' : Str → Option Str), reproCalls = pre ++ x :: post ∧
    FileRep.Runs false reproCfg optEnv { files := fun _ => none } pre r ∧ r.Crash false reproCfg x fs' ∧ bests pre ≠ [] ∧ x.isBest = true ∧ fs' (reproCfg.parName x.vis) = some [] := by
  obtain ⟨r, hr⟩ := recover_runs
  obtain ⟨x, post, sp, e, ⟨q, f, he⟩, hs⟩ := recover_calls
  refine ⟨reproCalls.take 8, x, post, r, execAll r.files [.create (reproCfg.parName x.vis)], e, (C115_complete _ _ _ _ _).2 hr, ?_, ?_, ?_, ?_⟩
  · have hw : r.WriteCalls false reproCfg x true _ := .mk (a := [sp.write reproCfg.fmt]) hs (by simp [Output])
    exact ⟨_, 1, by unfold FileRep.Calls; rw [he]; exact hw, rfl⟩
  · have : (bests (reproCalls.take 8)).length ≠ 0 := by decide +kernel
    intro h; rw [h] at this; exact this rfl
  · unfold Call.isBest; rw [he]
  · simp [execAll, FsCall.exec, putFile]

end Spot
