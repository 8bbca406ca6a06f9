import Verif.Props.CmaInvariance
import Verif.Props.EsTotal

/-! # CMA steps have a result (C75) -/

namespace Spot

variable [Libm] {G : GaussSrc Dbl}

theorem toPoints_size {n : Nat} (xs : List (Fin n → Dbl)) : ∀ x ∈ toPoints xs, x.length = n := by
  intro x hx
  unfold toPoints at hx
  rw [List.mem_map] at hx
  obtain ⟨v, -, rfl⟩ := hx
  simp

theorem boundedLoop_length {n : Nat} (tr : (Fin n → Dbl) → Fin n → Dbl) (b : Bounds Dbl n) : ∀ (ks : List Nat) (s : Cma G n),
    (Cma.boundedLoop tr b ks s).2.length = ks.length
  | [], _ => rfl
  | k :: ks, s => by rw [Cma.boundedLoop, List.length_cons, boundedLoop_length tr b ks, List.length_cons]

/-- A run keeps the objective, the number of tolerated errors and the size of the best point. -/
theorem cma_runs_WF (E : OptEnv) (info : ObjInfo) (c : CmaCfg info.dim) (F : Pt → Option Dbl) {m : Int} {s t : CmaOpt G info.dim}
    (hs : s.opt.vis.WF info m) {ps : List (List Pt)} (h : CmaOpt.Runs E c F s ps t) : t.opt.vis.WF info m := by
  induction h with
  | nil => exact hs
  | @snoc ps pop t t' h st ih =>
    cases st with
    | @ok d d' xs o hdim hp hev hu =>
      have hlen := toPoints_size xs
      set pop := toPoints xs with hpopd
      by_cases hpop : pop = []
      · rw [hpop] at hev
        have : (t.opt.evaluateStep E [] []).2 ≠ .ok true := by
          unfold Opt.evaluateStep
          simp only [List.map_nil, List.length_nil]
          split
          · simp
          · simp
        rw [show (([] : List Pt).map F) = [] from rfl] at hev
        rw [hev] at this
        exact absurd rfl this
      · have hv : ({ pop := pop, res := pop.map F } : In).Valid t.opt.vis.info := ⟨hpop, by simp, fun p hp' => by rw [ih.info_eq]; exact hlen p hp'⟩
        by_cases hf : ({ pop := pop, res := pop.map F } : In).Failed t.opt.vis.maxErrors
        · have := evaluateStep_failed E t.opt { pop := pop, res := pop.map F } hf
          rw [hev] at this
          simp at this
        · have := evaluateStep_completed E t.opt { pop := pop, res := pop.map F } hv (by rw [ih.info_eq]; exact ih.len) hf
          have hstep := stepped_WF E (i := { pop := pop, res := pop.map F }) ih (by rw [ih.info_eq] at hv; exact hv)
          rw [hev] at this
          have ho : o = _ := congrArg Prod.fst this
          rw [ho]
          unfold Vis.stepped at hstep
          rw [if_neg hf] at hstep
          exact ⟨hstep.info_eq, hstep.maxErr, hstep.len⟩
    | @failed d xs o hdim hp hev =>
      have : o.vis = t.opt.vis := by
        have h2 := congrArg (fun x => x.1.vis) hev
        have h3 := congrArg (fun x => x.2) hev
        simp only at h2 h3
        rw [← h2]
        unfold Opt.evaluateStep at h3 ⊢
        dsimp only at h3 ⊢
        split
        · rfl
        · rename_i hne
          rw [if_neg hne] at h3
          revert h3
          split
          · split <;> simp
          · simp
      show o.vis.WF info m
      rw [this]
      exact ih

/-- There is a next internal step from every state of an optimizer for `info`. -/
theorem cma_internal_total (E : OptEnv) (info : ObjInfo) (hd : 0 < info.dim) (c : CmaCfg info.dim) (hl : 1 ≤ c.par.lambda) (F : Pt → Option Dbl) {t : CmaOpt G info.dim}
    (hw : t.opt.vis.WF info 0) :
    ∃ pop t', CmaOpt.Internal E c F t pop t' ∧ pop.length = c.par.lambda ∧
      (t.opt.evaluateStep E pop (pop.map F)).2 = .ok (decide (¬ (0 : Int) < failures (pop.map F))) := by
  rcases hp : t.cma.sample c.tr c.bounds c.eig c.par with ⟨d, xs⟩
  have hxl : xs.length = c.par.lambda := by
    have := boundedLoop_length c.tr c.bounds (List.range c.par.lambda) (t.cma.samplePopulation c.eig c.par)
    rw [List.length_range] at this
    have h2 : xs = (t.cma.sample c.tr c.bounds c.eig c.par).2 := by rw [hp]
    rw [h2]; exact this
  have hd1 : d.state = 1 := by
    have := (t.cma.sample_same c.tr c.bounds c.eig c.par).2.1
    rw [hp] at this; exact this
  have hsz := toPoints_size xs
  have hlen : (toPoints xs).length = c.par.lambda := by rw [toPoints, List.length_map, hxl]
  set pop := toPoints xs with hpopd
  have hne : pop ≠ [] := by intro hh; rw [hh] at hlen; simp at hlen; omega
  have hv : ({ pop := pop, res := pop.map F } : In).Valid t.opt.vis.info := ⟨hne, by simp, fun p hp' => by rw [hw.info_eq]; exact hsz p hp'⟩
  have hfi : ({ pop := pop, res := pop.map F } : In).Failed t.opt.vis.maxErrors ↔ (0 : Int) < failures (pop.map F) := by
    rw [hw.maxErr]; unfold In.Failed; simp
  by_cases hf : ({ pop := pop, res := pop.map F } : In).Failed t.opt.vis.maxErrors
  · have hev := evaluateStep_failed E t.opt { pop := pop, res := pop.map F } hf
    refine ⟨pop, _, .failed hd hp hev, hlen, ?_⟩
    rw [hev, decide_eq_false (by rw [not_not]; exact hfi.1 hf)]
  · have hev := evaluateStep_completed E t.opt { pop := pop, res := pop.map F } hv (by rw [hw.info_eq]; exact hw.len) hf
    dsimp only at hev
    set o := (t.opt.evaluateStep E pop (pop.map F)).1 with ho
    have hev2 : t.opt.evaluateStep E pop (pop.map F) = (o, .ok true) := Prod.ext rfl (by rw [hev])
    have hcur : o.vis.curFitnesses.length = pop.length := by
      rw [ho, hev]
      simp only [Opt.signal]
      have : ∀ v : Vis, (v.track E).curFitnesses = v.curFitnesses := by intro v; unfold Vis.track; split <;> rfl
      rw [this]
      simp [Vis.evaluated]
    rcases d.update_cases c.par o.vis.info.minimize o.vis.curFitnesses with ⟨-, -, he⟩ | ⟨hn, -⟩
    · refine ⟨pop, _, .ok hd hp hev2 he, hlen, ?_⟩
      rw [hev2, decide_eq_true (by rw [← hfi]; exact hf)]
    · exact absurd ⟨hd1, by rw [hcur, hlen]⟩ hn

/-- **C75.** A CMA optimizer for an objective with parameters and `lambda >= 1` individuals always has a next step, in every state it can reach, for every objective (with any
failures), boundary transformer, eigenvalue decomposition and random numbers: `update_distribution` never throws from `internal_step`. A step fails exactly if more
evaluations fail than are tolerated; after a failed step the next one samples again. -/
theorem C75_step_total (E : OptEnv) (info : ObjInfo) (hd : 0 < info.dim) (c : CmaCfg info.dim) (hl : 1 ≤ c.par.lambda) (F : Pt → Option Dbl) (opt : Int) (modulo : Dbl) (rng : G.St)
    (s : CmaOpt G info.dim) (hs : CmaOpt.make info opt modulo rng = .ok (c.par, s)) {ps : List (List Pt)} {t : CmaOpt G info.dim}
    (h : CmaOpt.Runs E c F s ps t) :
    ∃ pop t', CmaOpt.Internal E c F t pop t' ∧ pop.length = c.par.lambda ∧
      (t.opt.evaluateStep E pop (pop.map F)).2 = .ok (decide (¬ (0 : Int) < failures (pop.map F))) := by
  have hw : t.opt.vis.WF info 0 := by
    refine cma_runs_WF E info c F ?_ h
    rw [(make_ok hs).1]
    exact ⟨by simp [Opt.init, Opt.addCond, Cond.minWindow], by simp [Opt.init, Opt.addCond, Cond.minWindow],
      by simp [Opt.init, Opt.addCond, Cond.minWindow, SearchPoint.ofInfo, ObjInfo.dim]⟩
  exact cma_internal_total E info hd c hl F hw

/-- **C75.** So there are runs of every length, which C47 and C48 are about. -/
theorem C75_runs (E : OptEnv) (info : ObjInfo) (hd : 0 < info.dim) (c : CmaCfg info.dim) (hl : 1 ≤ c.par.lambda) (F : Pt → Option Dbl) (opt : Int) (modulo : Dbl) (rng : G.St)
    (s : CmaOpt G info.dim) (hs : CmaOpt.make info opt modulo rng = .ok (c.par, s)) : ∀ k : Nat, ∃ ps t, ps.length = k ∧ CmaOpt.Runs E c F s ps t
  | 0 => ⟨[], _, rfl, .nil⟩
  | k + 1 => by
    obtain ⟨ps, t, h2, h3⟩ := C75_runs E info hd c hl F opt modulo rng s hs k
    obtain ⟨pop, t', h4, -⟩ := C75_step_total E info hd c hl F opt modulo rng s hs h3
    exact ⟨ps ++ [pop], t', by simp [h2], h3.snoc h4⟩

/-- **C75.** The constructor succeeds for every number of individuals from 2 on, unless the bounds of a parameter are equal: then it throws. -/
theorem C75_constructor (info : ObjInfo) (opt : Int) (modulo : Dbl) (rng : G.St) (h : 2 ≤ opt) :
    ((∀ q ∈ info.pars, Dbl.eq q.min q.max = false) → ∃ p s, (CmaOpt.make info opt modulo rng : Res (_ × CmaOpt G info.dim)) = .ok (p, s) ∧ (p.lambda : Int) = opt) ∧
    ((∃ q ∈ info.pars, Dbl.eq q.min q.max = true) → (CmaOpt.make info opt modulo rng : Res (_ × CmaOpt G info.dim)) = .err) := by
  obtain ⟨p, hp, hl⟩ : ∃ p, (if info.dim = 0 then (if opt < 0 then .err else .ok (CmaPar.empty opt.toNat modulo)) else CmaPar.make Dbl info.dim opt modulo) = .ok p ∧ (p.lambda : Int) = opt := by
    by_cases h0 : info.dim = 0
    · rw [if_pos h0, if_neg (by omega)]
      exact ⟨_, rfl, by show ((opt.toNat : Nat) : Int) = opt; omega⟩
    · rw [if_neg h0]
      exact C51_defined (K := Dbl) info.dim opt modulo h
  unfold CmaOpt.make
  rw [hp]
  simp only [Res.ok_bind]
  constructor
  · intro hq
    have : (info.pars.any fun q => Dbl.eq q.min q.max) = false := by
      rw [List.any_eq_false]
      intro q hm
      rw [hq q hm]; simp
    rw [this]
    exact ⟨p, _, rfl, hl⟩
  · rintro ⟨q, hm, hq⟩
    have : (info.pars.any fun q => Dbl.eq q.min q.max) = true := List.any_eq_true.2 ⟨q, hm, hq⟩
    rw [this]
    rfl

/-- **C75.** For an objective without parameters the constructor succeeds (unless the number of individuals is negative), but there is no step: `sample_population` asserts
that there are parameters. -/
theorem C75_no_parameters (E : OptEnv) (info : ObjInfo) (hd : info.dim = 0) (opt : Int) (modulo : Dbl) (rng : G.St) :
    (0 ≤ opt → ∃ p s, (CmaOpt.make info opt modulo rng : Res (_ × CmaOpt G info.dim)) = .ok (p, s) ∧ (p.lambda : Int) = opt ∧
      s.opt = (Opt.init info).addCond (.flat (lit (1 / 10 ^ 9)))) ∧
    (opt < 0 → (CmaOpt.make info opt modulo rng : Res (_ × CmaOpt G info.dim)) = .err) ∧
    ∀ (c : CmaCfg info.dim) (F : Pt → Option Dbl) (s t : CmaOpt G info.dim) (pop : List Pt), ¬ CmaOpt.Internal E c F s pop t := by
  refine ⟨fun h => ?_, fun h => ?_, fun c F s t pop h => by cases h <;> omega⟩
  · unfold CmaOpt.make
    rw [if_pos hd, if_neg (by omega)]
    have hp : info.pars = [] := List.length_eq_zero_iff.1 hd
    have ha : (info.pars.any fun q => Dbl.eq q.min q.max) = false := by rw [hp]; rfl
    simp only [Res.ok_bind]
    rw [ha]
    exact ⟨_, _, rfl, by show ((opt.toNat : Nat) : Int) = opt; omega, rfl⟩
  · unfold CmaOpt.make
    rw [if_pos hd, if_pos h]
    rfl

omit [Libm] in
theorem doubling : ∀ k : Fin 54, Dbl.eq (.fin (2 ^ k.val)) (.ofQ 0) = false ∧ Dbl.lt (.fin (2 ^ k.val)) (Dbl.mul (.ofQ (11 / 10)) (.fin (2 ^ k.val))) = true ∧
    Dbl.mul (.fin (2 ^ k.val)) (.ofQ 2) = .fin (2 ^ (k.val + 1)) ∧ Dbl.eq (.fin (2 ^ k.val)) (Dbl.add (.fin (2 ^ k.val)) (.ofQ 1)) = decide (k.val = 53) := by
  decide +kernel

/-- **C75.** The loop of the constructor that looks for the number of significant digits ends, in floating point: after 53 doublings of 1, since `2^53 + 1` is rounded to `2^53`. -/
theorem C75_precision_loop (fuel : Nat) (h : 54 ≤ fuel) : kondLoop Dbl fuel (lit 1) = some (.fin (2 ^ 53)) := by
  have key : ∀ (j k f : Nat), k + j = 53 → kondLoop Dbl (f + (j + 1)) (.fin (2 ^ k)) = some (.fin (2 ^ 53)) := by
    intro j
    induction j with
    | zero =>
      intro k f hk
      have hk' : k = 53 := by omega
      subst hk'
      obtain ⟨h1, h2, h3, h4⟩ := doubling ⟨53, by omega⟩
      show (if (!Dbl.eq (.fin (2 ^ 53)) (.ofQ 0) && Dbl.lt (.fin (2 ^ 53)) (Dbl.mul (.ofQ (11 / 10)) (.fin (2 ^ 53)))) = true then
        (if Dbl.eq (.fin (2 ^ 53)) (Dbl.add (.fin (2 ^ 53)) (.ofQ 1)) = true then some (.fin (2 ^ 53)) else kondLoop Dbl f (Dbl.mul (.fin (2 ^ 53)) (.ofQ 2))) else some (.fin (2 ^ 53))) = _
      dsimp only at h1 h2 h4
      rw [h1, h2, h4]
      rfl
    | succ j ih =>
      intro k f hk
      obtain ⟨h1, h2, h3, h4⟩ := doubling ⟨k, by omega⟩
      show (if (!Dbl.eq (.fin (2 ^ k)) (.ofQ 0) && Dbl.lt (.fin (2 ^ k)) (Dbl.mul (.ofQ (11 / 10)) (.fin (2 ^ k)))) = true then
        (if Dbl.eq (.fin (2 ^ k)) (Dbl.add (.fin (2 ^ k)) (.ofQ 1)) = true then some (.fin (2 ^ k)) else kondLoop Dbl (f + (j + 1)) (Dbl.mul (.fin (2 ^ k)) (.ofQ 2))) else some (.fin (2 ^ k))) = _
      dsimp only at h1 h2 h3 h4
      rw [h1, h2, h4, h3, decide_eq_false (by omega)]
      exact ih (k + 1) f (by omega)
  have h1 : (lit 1 : Dbl) = .fin (2 ^ 0) := by show Dbl.ofQ 1 = _; decide +kernel
  have := key 53 0 (fuel - 54) (by omega)
  rw [show fuel - 54 + (53 + 1) = fuel by omega] at this
  rw [h1]
  exact this

omit [Libm] in
/-- In exact arithmetic it would not end. -/
theorem C75_precision_loop_exact : ∀ fuel, kondLoop ℝ fuel (lit 1) = none := by
  have : ∀ (fuel : Nat) (x : ℝ), 0 < x → kondLoop ℝ fuel x = none := by
    intro fuel
    induction fuel with
    | zero => intro x _; rfl
    | succ f ih =>
      intro x hx
      rw [kondLoop]
      have h1 : x ≠ 0 := hx.ne'
      have h2 : x < 11 / 10 * x := by linarith
      simp [h1, h2, ih (x * 2) (by linarith)]
  intro fuel
  exact this fuel _ (by simp)

end Spot
