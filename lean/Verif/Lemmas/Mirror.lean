import Verif.Spec.Mirror

/-! # Every call commutes with mirroring -/

namespace Spot

theorem neg_neg' (a : Dbl) : a.neg.neg = a := by cases a <;> simp [Dbl.neg]

theorem neg_zero' : Dbl.neg (.fin 0) = .fin 0 := by simp [Dbl.neg]

theorem map_neg_neg (l : List Dbl) : (l.map Dbl.neg).map Dbl.neg = l := by
  rw [List.map_map]
  conv_rhs => rw [← List.map_id l]
  exact List.map_congr_left fun a _ => neg_neg' a

theorem ObjInfo.opposite_opposite (i : ObjInfo) : i.opposite.opposite = i := by simp [ObjInfo.opposite]

theorem Lin.mirror_mirror (t : Lin) : t.mirror.mirror = t := by simp [Lin.mirror, neg_neg']

theorem Vis.mirror_mirror (v : Vis) : v.mirror.mirror = v := by
  simp only [Vis.mirror, neg_neg', map_neg_neg, ObjInfo.opposite_opposite, Lin.mirror_mirror]

theorem Event.mirror_mirror (e : Event) : e.mirror.mirror = e := by
  cases e <;> simp only [Event.mirror, neg_neg', map_neg_neg]

theorem mirrorCall_mirrorCall (e : Event × Vis) : mirrorCall (mirrorCall e) = e := by
  simp [mirrorCall, Event.mirror_mirror, Vis.mirror_mirror]

theorem map_mirrorCall (l : List (Event × Vis)) : (l.map mirrorCall).map mirrorCall = l := by
  rw [List.map_map]
  conv_rhs => rw [← List.map_id l]
  exact List.map_congr_left fun a _ => mirrorCall_mirrorCall a

theorem Cond.mirror_mirror (c : Cond) : c.mirror.mirror = c := by
  cases c <;> simp [Cond.mirror, neg_neg', Vis.mirror_mirror]

theorem mirrorThrows_mirror (t : List (Event × Vis) → Bool) : mirrorThrows (mirrorThrows t) = t := by
  funext l; simp only [mirrorThrows, map_mirrorCall]

theorem Op.mirror_mirror (o : Op) : o.mirror.mirror = o := by
  cases o with
  | step i =>
    simp only [Op.mirror, In.mirror, List.map_map]
    congr
    conv_rhs => rw [← List.map_id i.res]
    exact List.map_congr_left fun a _ => by cases a <;> simp [neg_neg']
  | addCond c => simp [Op.mirror, Cond.mirror_mirror]
  | addRep t => simp [Op.mirror, mirrorThrows_mirror]
  | _ => rfl

theorem core_mirror (v : Vis) : v.mirror.core = v.core.mirror := by
  simp [Vis.core, Vis.mirror, Lin.mirror, neg_zero']

theorem minWindow_mirror (c : Cond) : c.mirror.minWindow = c.minWindow := by cases c <;> rfl

theorem isBetter_mirror (i : ObjInfo) (a b : Dbl) : i.opposite.isBetter a.neg b.neg = i.isBetter a b := (neg_fitRel i).better rfl rfl

theorem worst_mirror (i : ObjInfo) : i.opposite.worstFitness = i.worstFitness.neg := (neg_fitRel i).worst

theorem forall₂_neg (l : List Dbl) : List.Forall₂ (fun a b => b = Dbl.neg a) l (l.map Dbl.neg) := by
  induction l with
  | nil => exact .nil
  | cons a l ih => exact .cons rfl ih

theorem findBest_mirror (i : ObjInfo) (l : List Dbl) : i.opposite.findBestFitness (l.map Dbl.neg) = i.findBestFitness l :=
  findBest_congr (neg_fitRel i) (forall₂_neg l)

theorem minElem_neg (c1 c2 : Dbl → Dbl → Bool) (h : ∀ a b, c2 a.neg b.neg = c1 a b) (l : List Dbl) : ObjInfo.minElem c2 (l.map Dbl.neg) = ObjInfo.minElem c1 l := by
  cases l with
  | nil => rfl
  | cons a l => exact minElemLoop_congr (Rel := fun a b => b = Dbl.neg a) (by rintro a b a' b' rfl rfl; exact h a a') (forall₂_neg l) _ _ _ _ rfl

theorem maxOf_neg (l : List Dbl) : maxOf (l.map Dbl.neg) = (minOf l).map Dbl.neg := by
  unfold maxOf minOf
  rw [minElem_neg (fun x b => Dbl.lt x b) _ (fun a b => neg_lt_neg' b a), List.getElem?_map]

theorem minOf_neg (l : List Dbl) : minOf (l.map Dbl.neg) = (maxOf l).map Dbl.neg := by
  unfold maxOf minOf
  rw [minElem_neg (fun x b => Dbl.lt b x) _ (fun a b => neg_lt_neg' a b), List.getElem?_map]

theorem sub_neg' (a b : Dbl) : Dbl.sub b.neg a.neg = Dbl.sub a b := by
  cases a <;> cases b <;> simp [Dbl.sub, Dbl.neg, Dbl.add, add_comm, sub_eq_add_neg]

variable {E : OptEnv}

theorem setWindow_mirror (v : Vis) (n : Nat) : v.mirror.setWindow n = (v.setWindow n).mirror := by
  simp [Vis.setWindow, Vis.mirror, List.map_drop]

theorem fitnessTrend_mirror (hE : E.Odd) (v : Vis) : v.mirror.fitnessTrend E = ((v.fitnessTrend E).1.mirror, (v.fitnessTrend E).2.mirror) := by
  unfold Vis.fitnessTrend
  have h0 : (⟨.fin 0, .fin 0⟩ : Lin).mirror = ⟨.fin 0, .fin 0⟩ := by simp [Lin.mirror, neg_zero']
  show (if v.trendStep ≠ some v.samples then _ else _) = _
  split
  · simp only [Vis.mirror, List.length_map, hE.regress]
    split <;> simp [h0]
  · rfl

theorem progress_mirror (hE : E.Odd) (v : Vis) : v.mirror.progress E = ((v.progress E).1.mirror, (v.progress E).2) := by
  unfold Vis.progress
  rw [fitnessTrend_mirror hE]
  show (if v.capacity = 0 then _ else if (v.history.map Dbl.neg).length ≥ 2 then _ else _) = _
  rw [List.length_map]
  split
  · rfl
  · split
    · dsimp only [Vis.mirror]
      rw [List.length_map, hE.relSlope]
      cases hm : v.info.minimize <;> simp [ObjInfo.opposite, hm, neg_neg']
    · rfl

/-- A returned fitness. -/
def Res.negated : Res Dbl → Res Dbl
  | .ok x => .ok x.neg
  | .err => .err
  | .ub => .ub

theorem predicted_mirror (hE : E.Odd) (v : Vis) (k : Nat) : v.mirror.predictedFitness E k = ((v.predictedFitness E k).1.mirror, (v.predictedFitness E k).2.negated) := by
  unfold Vis.predictedFitness
  rw [fitnessTrend_mirror hE]
  show (if v.capacity = 0 then _ else if (v.history.map Dbl.neg).length ≥ 2 then _ else _) = _
  rw [List.length_map]
  split
  · rfl
  · split
    · dsimp only [Vis.mirror]
      rw [hE.evalLin]
      rfl
    · simp [Res.negated, neg_zero']

theorem test_mirror (hE : E.Odd) (c : Cond) (v : Vis) : c.mirror.test E v.mirror = ((c.test E v).1.mirror, (c.test E v).2) := by
  cases c with
  | flat eps =>
    simp only [Cond.mirror, Cond.test]
    show (if v.stepCount > 0 then _ else _) = _
    split
    · show (match maxOf (v.curFitnesses.map Dbl.neg), minOf (v.curFitnesses.map Dbl.neg) with | some h, some l => _ | _, _ => _) = _
      rw [maxOf_neg, minOf_neg]
      cases maxOf v.curFitnesses <;> cases minOf v.curFitnesses <;> simp [sub_neg']
    · rfl
  | target t =>
    simp only [Cond.mirror, Cond.test]
    exact Prod.ext rfl (congrArg Res.ok (isBetter_mirror _ _ _))
  | minProgress p m =>
    simp only [Cond.mirror, Cond.test]
    show (if v.stepCount ≥ m then _ else _) = _
    split
    · rw [progress_mirror hE]
      rcases v.progress E with ⟨v', r⟩
      cases r <;> rfl
    · rfl
  | predicted f a m =>
    simp only [Cond.mirror, Cond.test]
    show (if v.stepCount ≥ m then _ else _) = _
    split
    · rw [predicted_mirror hE]
      rcases v.predictedFitness E a with ⟨v', r⟩
      cases r with
      | ok x => exact Prod.ext rfl (congrArg (fun b => Res.ok !b) (isBetter_mirror _ _ _))
      | err => rfl
      | ub => rfl
    · rfl
  | custom w a t =>
    cases a with
    | true => simp only [Cond.mirror, Cond.test, fitnessTrend_mirror hE, Vis.mirror_mirror]
    | false => simp only [Cond.mirror, Cond.test, core_mirror, Vis.mirror_mirror]
  | _ => rfl

theorem testLoop_mirror (hE : E.Odd) : ∀ (cs : List Cond) (k : Nat) (v : Vis), testLoop E k (cs.map Cond.mirror) v.mirror = ((testLoop E k cs v).1.mirror, (testLoop E k cs v).2)
  | [], _, _ => rfl
  | c :: cs, k, v => by
    simp only [List.map_cons, testLoop, test_mirror hE]
    rcases c.test E v with ⟨v', r⟩
    cases r with
    | ok b =>
      cases b with
      | true => rfl
      | false => exact testLoop_mirror hE cs (k + 1) v'
    | err => rfl
    | ub => rfl

theorem signalLoop_mirror (e : Event × Vis) : ∀ rs : List Rep, signalLoop (mirrorCall e) (rs.map Rep.mirror) = (signalLoop e rs).map Rep.mirror
  | [] => rfl
  | r :: rs => by
    have h : mirrorThrows r.throws (r.got.map mirrorCall ++ [mirrorCall e]) = r.throws (r.got ++ [e]) := by
      have : r.got.map mirrorCall ++ [mirrorCall e] = (r.got ++ [e]).map mirrorCall := by simp
      rw [this, mirrorThrows, map_mirrorCall]
    simp only [List.map_cons, signalLoop]
    have hh : r.mirror.throws (r.mirror.got ++ [mirrorCall e]) = r.throws (r.got ++ [e]) := h
    rw [hh]
    split
    · simp [Rep.mirror]
    · rw [signalLoop_mirror e rs]; simp [Rep.mirror]

theorem signal_mirror (s : Opt) (e : Event) : s.mirror.signal e.mirror = (s.signal e).mirror := by
  have h := signalLoop_mirror (e, s.vis) s.reps
  simp only [mirrorCall] at h
  simp only [Opt.signal, Opt.mirror, h, List.map_append, List.map_cons, List.map_nil, mirrorCall]

theorem addCond_mirror (s : Opt) (c : Cond) : s.mirror.addCond c.mirror = (s.addCond c).mirror := by
  have hc : s.vis.mirror.capacity = s.vis.capacity := rfl
  simp only [Opt.addCond, Opt.mirror, minWindow_mirror, setWindow_mirror, hc, List.map_append, List.map_cons, List.map_nil]
  split <;> rfl

theorem testStop_mirror (hE : E.Odd) (s : Opt) : s.mirror.testStop E = ((s.testStop E).1.mirror, (s.testStop E).2) := by
  unfold Opt.testStop
  obtain hs | ⟨k, hs⟩ : s.stopped = none ∨ ∃ k, s.stopped = some k := by cases s.stopped <;> simp
  · have hs' : s.mirror.stopped = none := hs
    have hl : testLoop E 0 s.mirror.conds s.mirror.vis = _ := testLoop_mirror hE s.conds 0 s.vis
    rw [hs, hs']
    dsimp only
    rw [hl]
    rcases testLoop E 0 s.conds s.vis with ⟨v, r⟩
    cases r with
    | ok o =>
      cases o with
      | none => rfl
      | some k =>
        refine Prod.ext ?_ rfl
        exact signal_mirror { s with vis := v, stopped := some k } (.stop k)
    | err => rfl
    | ub => rfl
  · have hs' : s.mirror.stopped = some k := hs
    rw [hs, hs']

theorem setError_mirror : ∀ cs : List Cond, setError (cs.map Cond.mirror) = (setError cs).map Cond.mirror
  | [] => rfl
  | c :: cs => by
    cases c <;> simp [setError, Cond.mirror, setError_mirror cs]

theorem track_mirror (hE : E.Odd) (v : Vis) : v.mirror.track E = (v.track E).mirror := by
  unfold Vis.track
  show (if v.capacity > 0 then _ else _) = _
  split
  · simp only [Vis.mirror, List.length_map, hE.toFloat]
    split <;> simp
  · rfl

theorem interrupt_mirror (s : Opt) : s.mirror.interrupt = s.interrupt.mirror := rfl

theorem errorCount_mirror (res : List (Option Dbl)) : errorCount (res.map (Option.map Dbl.neg)) = errorCount res := by
  unfold errorCount
  induction res with
  | nil => rfl
  | cons r res ih => cases r <;> simp [ih]

theorem evaluateStep_mirror (hE : E.Odd) (s : Opt) (pop : List Pt) (res : List (Option Dbl)) :
    s.mirror.evaluateStep E pop (res.map (Option.map Dbl.neg)) = ((s.evaluateStep E pop res).1.mirror, (s.evaluateStep E pop res).2) := by
  unfold Opt.evaluateStep
  have h0 : s.mirror.signal (.preEvaluate pop) = (s.signal (.preEvaluate pop)).mirror := signal_mirror s (.preEvaluate pop)
  rw [h0]
  generalize s.signal (.preEvaluate pop) = s
  have hfs : (res.map (Option.map Dbl.neg)).map (fun r => r.getD s.vis.info.opposite.worstFitness) = (res.map (fun r => r.getD s.vis.info.worstFitness)).map Dbl.neg := by
    rw [List.map_map, List.map_map]
    refine List.map_congr_left fun r _ => ?_
    cases r with
    | none => exact worst_mirror _
    | some f => rfl
  dsimp only
  rw [errorCount_mirror, List.length_map]
  show (if (errorCount res : Int) > allowedErrors s.vis.maxErrors res.length then _ else _) = _
  split
  · refine Prod.ext ?_ rfl
    show ({ s.mirror with conds := setError (s.conds.map Cond.mirror) } : Opt) = _
    rw [setError_mirror]; rfl
  · have hi : s.mirror.vis.info = s.vis.info.opposite := rfl
    rw [hi, hfs, findBest_mirror, List.getElem?_map]
    generalize res.map (fun r => r.getD s.vis.info.worstFitness) = fs
    cases fs[s.vis.info.findBestFitness fs]? with
    | none => rfl
    | some f =>
      cases pop[s.vis.info.findBestFitness fs]? with
      | none => rfl
      | some p =>
        dsimp only [Option.map]
        have hb : s.vis.info.opposite.isBetter f.neg s.mirror.vis.bestFitness = s.vis.info.isBetter f s.vis.bestFitness := isBetter_mirror _ _ _
        rw [hb]
        have hl : s.mirror.vis.bestPoint = s.vis.bestPoint := rfl
        rw [hl]
        have hfin : ∀ (u : Opt) (nb : Bool), ({ u.mirror with vis := u.mirror.vis.track E } : Opt).signal (.postEvaluate pop (fs.map Dbl.neg) nb) =
            (({ u with vis := u.vis.track E } : Opt).signal (.postEvaluate pop fs nb)).mirror := by
          intro u nb
          rw [← signal_mirror, show u.mirror.vis = u.vis.mirror from rfl, track_mirror hE]
          rfl
        by_cases hnb : s.vis.info.isBetter f s.vis.bestFitness = true
        · rw [if_pos hnb, if_pos hnb]
          by_cases hp : s.vis.bestPoint.length = p.length
          · rw [if_pos hp, if_pos hp]
            dsimp only
            refine Prod.ext ?_ rfl
            rw [← hfin, ← signal_mirror]
            rfl
          · rw [if_neg hp, if_neg hp]
            rfl
        · rw [if_neg hnb, if_neg hnb]
          dsimp only
          refine Prod.ext ?_ rfl
          exact hfin { s with vis := { s.vis with curFitnesses := fs, curFitness := f, curPoint := p } } _

theorem internal_mirror (hE : E.Odd) (i : In) (s : Opt) : Opt.internal E i.mirror s.mirror = ((Opt.internal E i s).1.mirror, (Opt.internal E i s).2) := by
  unfold Opt.internal
  have h : s.mirror.evaluateStep E i.mirror.pop i.mirror.res = _ := evaluateStep_mirror hE s i.pop i.res
  rw [h]
  dsimp only [In.mirror]
  by_cases hi : i.interrupt = true <;> simp [hi, interrupt_mirror]

theorem opening_mirror (s : Opt) : (if s.mirror.vis.stepCount = 0 then s.mirror.signal .start else s.mirror).signal .preStep =
    ((if s.vis.stepCount = 0 then s.signal .start else s).signal .preStep).mirror := by
  have hs : s.mirror.vis.stepCount = s.vis.stepCount := rfl
  rw [hs, ← signal_mirror]
  split
  · rw [← signal_mirror]; rfl
  · rfl

theorem closing_mirror (hE : E.Odd) (s : Opt) : ({ s.mirror.signal .postStep with vis := { (s.mirror.signal .postStep).vis with stepCount := (s.mirror.signal .postStep).vis.stepCount + 1 } } : Opt).testStop E =
    ((({ s.signal .postStep with vis := { (s.signal .postStep).vis with stepCount := (s.signal .postStep).vis.stepCount + 1 } } : Opt).testStop E).1.mirror,
     (({ s.signal .postStep with vis := { (s.signal .postStep).vis with stepCount := (s.signal .postStep).vis.stepCount + 1 } } : Opt).testStop E).2) := by
  rw [← testStop_mirror hE, show s.mirror.signal .postStep = (s.signal .postStep).mirror from signal_mirror s .postStep]
  rfl

theorem step_mirror (hE : E.Odd) (i : In) (s : Opt) :
    s.mirror.step E (Opt.internal E i.mirror) = ((s.step E (Opt.internal E i)).1.mirror, (s.step E (Opt.internal E i)).2) := by
  unfold Opt.step
  dsimp only
  rw [opening_mirror, internal_mirror hE]
  have hd : s.mirror.vis.info.dim = s.vis.info.dim := rfl
  rw [hd]
  split
  · rfl
  · rcases Opt.internal E i ((if s.vis.stepCount = 0 then s.signal .start else s).signal .preStep) with ⟨u, r⟩
    cases r with
    | ok b =>
      cases b with
      | true => exact closing_mirror hE u
      | false => exact testStop_mirror hE u
    | err => rfl
    | ub => rfl

theorem apply_mirror (hE : E.Odd) (o : Op) (s : Opt) : o.mirror.apply E s.mirror = (o.apply E s).mirror := by
  cases o with
  | step i => show (s.mirror.step E (Opt.internal E i.mirror)).1 = _; rw [step_mirror hE]; rfl
  | interrupt => rfl
  | addCond c => exact addCond_mirror s c
  | addRep t => simp [Op.mirror, Op.apply, Opt.mirror, Rep.mirror]
  | window n => simp only [Op.mirror, Op.apply, Opt.mirror, setWindow_mirror]
  | trend => simp only [Op.mirror, Op.apply, Opt.mirror, fitnessTrend_mirror hE]
  | progress => simp only [Op.mirror, Op.apply, Opt.mirror, progress_mirror hE]
  | predicted k => simp only [Op.mirror, Op.apply, Opt.mirror, predicted_mirror hE]
  | test => simp only [Op.mirror, Op.apply, testStop_mirror hE]

theorem new_mirror (info : ObjInfo) (m : Int) : Opt.new info.opposite m = (Opt.new info m).mirror := by
  simp only [Opt.new, Opt.init, Opt.addCond, Cond.minWindow, Opt.mirror, Vis.mirror, worst_mirror]
  simp [Cond.mirror, Lin.mirror, neg_zero']
  rfl

end Spot
