import Verif.Props.Invariance

/-! # MES and EVA steps have a result (C72) -/

namespace Spot

variable [Libm] {R : Rng Dbl}

omit [Libm] in
/-- The fitnesses can always be ordered. -/
theorem sortedOrder_exists (info : ObjInfo) (fs : List Dbl) : ∃ order, SortedOrder info fs order := by
  by_cases hn : Dbl.nan ∈ fs
  · exact ⟨List.range fs.length, .refl _, fun h => absurd hn h⟩
  · have hv : ∀ i : Nat, fs.getD i info.worstFitness ≠ .nan := by
      intro i
      by_cases hi : i < fs.length
      · intro h
        rw [List.getD_eq_getElem?_getD, List.getElem?_eq_getElem hi, Option.getD_some] at h
        exact hn (h ▸ List.getElem_mem hi)
      · rw [List.getD_eq_getElem?_getD, List.getElem?_eq_none (by omega), Option.getD_none]; exact worst_ne_nan info
    let le : Nat → Nat → Bool := fun i j => !info.isBetter (fs.getD j info.worstFitness) (fs.getD i info.worstFitness)
    have htrans : ∀ a b c : Nat, le a b = true → le b c = true → le a c = true := by
      intro a b c h1 h2
      simp only [le, Bool.not_eq_true'] at *
      exact not_better_trans (hv _) (hv _) (hv _) h2 h1
    have htotal : ∀ a b : Nat, (le a b || le b a) = true := by
      intro a b
      simp only [le, Bool.or_eq_true, Bool.not_eq_true']
      by_cases h : info.isBetter (fs.getD b info.worstFitness) (fs.getD a info.worstFitness) = true
      · exact .inr (isBetter_asymm info h)
      · exact .inl (by simpa using h)
    refine ⟨(List.range fs.length).mergeSort le, List.mergeSort_perm _ _, fun _ => ?_⟩
    refine (List.pairwise_mergeSort htrans htotal _).imp ?_
    intro i j h x y hx hy
    simp only [le, Bool.not_eq_true', List.getD_eq_getElem?_getD, hx, hy, Option.getD_some] at h
    exact h

/-- A run keeps the objective, the number of tolerated errors and the size of the best point. -/
theorem runs_WF (E : OptEnv) (info : ObjInfo) (c : EsCfg R info.dim) (F : Pt → Option Dbl) {m : Int} {s t : EsOpt R info.dim}
    (hs : s.opt.vis.WF info m) {ps : List (List Pt)} (h : EsOpt.Runs E c F s ps t) : t.opt.vis.WF info m := by
  induction h with
  | nil => exact hs
  | @snoc ps pop t t' h st ih =>
    have hlen : ∀ x ∈ (samplePopulation R c.bounds c.alg.ofs.1 c.alg.ofs.2 c.lambda t.dist t.eng).1, x.length = info.dim := by
      intro x hx
      obtain ⟨v, rfl, hv⟩ := (samplePop_all R c.bounds t.dist (fun _ _ => True) (fun _ _ _ _ => trivial) c.lambda _ _).2 x hx
      rw [List.length_map, ← hv.length_eq, List.length_finRange]
    cases st with
    | @ok e o order d hp hev ho hu =>
      rw [hp] at hlen
      by_cases hpop : pop = []
      · subst hpop
        have : (t.opt.evaluateStep E [] []).2 ≠ .ok true := by
          unfold Opt.evaluateStep
          simp only [List.map_nil, List.length_nil]
          split
          · simp
          · simp
        rw [show (([] : List Pt).map F) = [] from rfl] at hev
        rw [hev] at this
        exact absurd rfl this
      · have hv : ({ pop := pop, res := pop.map F } : In).Valid t.opt.vis.info := ⟨hpop, by simp, fun p hp' => by rw [ih.info_eq]; exact hlen p hp'⟩
        by_cases hf : ({ pop := pop, res := pop.map F } : In).Failed t.opt.vis.maxErrors
        · have := evaluateStep_failed E t.opt { pop := pop, res := pop.map F } hf
          rw [hev] at this
          simp at this
        · have := evaluateStep_completed E t.opt { pop := pop, res := pop.map F } hv (by rw [ih.info_eq]; exact ih.len) hf
          have hstep := stepped_WF E (i := { pop := pop, res := pop.map F }) ih (by rw [ih.info_eq] at hv; exact hv)
          rw [hev] at this
          have ho : o = _ := congrArg Prod.fst this
          rw [ho]
          unfold Vis.stepped at hstep
          rw [if_neg hf] at hstep
          exact ⟨hstep.info_eq, hstep.maxErr, hstep.len⟩
    | @failed e o hp hev =>
      rw [hp] at hlen
      have : o.vis = t.opt.vis := by
        have h2 := congrArg (fun x => x.1.vis) hev
        have h3 := congrArg (fun x => x.2) hev
        simp only at h2 h3
        rw [← h2]
        unfold Opt.evaluateStep at h3 ⊢
        dsimp only at h3 ⊢
        split
        · rfl
        · rename_i hne
          rw [if_neg hne] at h3
          revert h3
          split
          · split <;> simp
          · simp
      show o.vis.WF info m
      rw [this]
      exact ih

/-- There is a next internal step from every state of an optimizer for `info`. -/
theorem es_internal_total (E : OptEnv) (info : ObjInfo) (c : EsCfg R info.dim) (hl : 1 ≤ c.lambda) (h0 : 0 ≤ c.mu) (h1 : c.mu ≤ c.lambda)
    (F : Pt → Option Dbl) {t : EsOpt R info.dim} (hw : t.opt.vis.WF info 0) :
    ∃ pop t', EsOpt.Internal E c F t pop t' ∧ pop.length = c.lambda ∧
      (t.opt.evaluateStep E pop (pop.map F)).2 = .ok (decide (¬ (0 : Int) < failures (pop.map F))) := by
  have hall := samplePop_all R c.bounds t.dist (fun _ _ => True) (fun _ _ _ _ => trivial) c.lambda (R.normal c.alg.ofs.1 c.alg.ofs.2) t.eng
  rcases hp : samplePopulation R c.bounds c.alg.ofs.1 c.alg.ofs.2 c.lambda t.dist t.eng with ⟨pop, e'⟩
  have hp' : sampleLoopPop R c.bounds t.dist c.lambda (R.normal c.alg.ofs.1 c.alg.ofs.2) t.eng = (pop, e') := hp
  rw [hp'] at hall
  obtain ⟨hlen, hx⟩ := hall
  dsimp only at hlen hx
  have hne : pop ≠ [] := by intro hh; rw [hh] at hlen; simp at hlen; omega
  have hsz : ∀ x ∈ pop, x.length = info.dim := by
    intro x hxp
    obtain ⟨v, rfl, hv⟩ := hx x hxp
    rw [List.length_map, ← hv.length_eq, List.length_finRange]
  have hv : ({ pop := pop, res := pop.map F } : In).Valid t.opt.vis.info := ⟨hne, by simp, fun p hp' => by rw [hw.info_eq]; exact hsz p hp'⟩
  have hfi : ({ pop := pop, res := pop.map F } : In).Failed t.opt.vis.maxErrors ↔ (0 : Int) < failures (pop.map F) := by
    rw [hw.maxErr]; unfold In.Failed; simp
  by_cases hf : ({ pop := pop, res := pop.map F } : In).Failed t.opt.vis.maxErrors
  · have hev := evaluateStep_failed E t.opt { pop := pop, res := pop.map F } hf
    refine ⟨pop, _, .failed hp hev, hlen, ?_⟩
    rw [hev, decide_eq_false (by rw [not_not]; exact hfi.1 hf)]
  · have hev := evaluateStep_completed E t.opt { pop := pop, res := pop.map F } hv (by rw [hw.info_eq]; exact hw.len) hf
    dsimp only at hev
    set o := (t.opt.evaluateStep E pop (pop.map F)).1 with ho
    have hev2 : t.opt.evaluateStep E pop (pop.map F) = (o, .ok true) := Prod.ext rfl (by rw [hev])
    obtain ⟨order, hord⟩ := sortedOrder_exists o.vis.info o.vis.curFitnesses
    have hcur : o.vis.curFitnesses.length = pop.length := by
      rw [ho, hev]
      simp only [Opt.signal]
      have : ∀ v : Vis, (v.track E).curFitnesses = v.curFitnesses := by intro v; unfold Vis.track; split <;> rfl
      rw [this]
      simp [Vis.evaluated]
    have hub := C46_out_of_bounds c.alg c.eps c.mu t.dist o.vis.info o.vis.curFitnesses order hord (pop.map (vecOf info.dim)) (by rw [List.length_map, hcur])
    have hnot : ¬ (c.mu < 0 ∨ ((pop.map (vecOf info.dim)).length : Int) < c.mu) := by rw [List.length_map, hlen]; omega
    rcases hub.2 with hu | ⟨d, hu⟩
    · exact absurd (hub.1.1 hu) hnot
    · refine ⟨pop, _, .ok hp hev2 hord hu, hlen, ?_⟩
      rw [hev2, decide_eq_true (by rw [← hfi]; exact hf)]

/-- **C72.** A MES or EVA optimizer with `lambda >= 1` and `0 <= mu <= lambda` never reads out of bounds: in every state it can reach there is a
next step, for every objective (with any failures), distribution and random stream; the step fails exactly if more evaluations fail than
are tolerated. -/
theorem C72_step_total (E : OptEnv) (info : ObjInfo) (c : EsCfg R info.dim) (hl : 1 ≤ c.lambda) (h0 : 0 ≤ c.mu) (h1 : c.mu ≤ c.lambda)
    (F : Pt → Option Dbl) (e : R.Eng) {ps : List (List Pt)} {t : EsOpt R info.dim} (h : EsOpt.Runs E c F (EsOpt.make info e) ps t) :
    ∃ pop t', EsOpt.Internal E c F t pop t' ∧ pop.length = c.lambda ∧
      (t.opt.evaluateStep E pop (pop.map F)).2 = .ok (decide (¬ (0 : Int) < failures (pop.map F))) := by
  exact es_internal_total E info c hl h0 h1 F (runs_WF E info c F ⟨by simp [EsOpt.make, Opt.init, Opt.addCond, Cond.minWindow], by simp [EsOpt.make, Opt.init, Opt.addCond, Cond.minWindow],
    by simp [EsOpt.make, Opt.init, Opt.addCond, Cond.minWindow, SearchPoint.ofInfo, ObjInfo.dim]⟩ h)

/-- So there are runs of every length, which the theorems about runs (C44, C47, C48) are about. -/
theorem C72_runs (E : OptEnv) (info : ObjInfo) (c : EsCfg R info.dim) (hl : 1 ≤ c.lambda) (h0 : 0 ≤ c.mu) (h1 : c.mu ≤ c.lambda)
    (F : Pt → Option Dbl) (e : R.Eng) : ∀ k : Nat, ∃ ps t, ps.length = k ∧ EsOpt.Runs E c F (EsOpt.make info e) ps t
  | 0 => ⟨[], _, rfl, .nil⟩
  | k + 1 => by
    obtain ⟨ps, t, h2, h3⟩ := C72_runs E info c hl h0 h1 F e k
    obtain ⟨pop, t', h4, -⟩ := C72_step_total E info c hl h0 h1 F e h3
    exact ⟨ps ++ [pop], t', by simp [h2], h3.snoc h4⟩

end Spot
