import Verif.Props.Pool

/-! # Concrete histories of pools, and further properties (C68 - C70) -/

namespace Spot

variable {E : OptEnv}

/-- A history of steps with the given inputs and orders. -/
def Pool.runs (E : OptEnv) : List ((Nat → In) × List Nat) → Pool → Option (List (List Nat × List Nat) × Pool)
  | [], p => some ([], p)
  | (ins, ord) :: rest, p =>
    match p.stepWith E ins ord with
    | none => none
    | some (sel, run, p', _) => match Pool.runs E rest p' with
      | none => none
      | some (ls, q) => some ((sel, run) :: ls, q)

theorem runs_sound {P : Opt → Prop} : ∀ (w : List ((Nat → In) × List Nat)) (p0 p : Pool) (l0 : List (List Nat × List Nat)),
    Pool.Hist E P p0 l0 p → ∀ ls q, Pool.runs E w p = some (ls, q) → Pool.Hist E P p0 (l0 ++ ls) q := by
  intro w
  induction w with
  | nil => intro p0 p l0 h ls q hr; cases hr; simpa using h
  | cons x w ih =>
    intro p0 p l0 h ls q hr
    obtain ⟨ins, ord⟩ := x
    simp only [Pool.runs] at hr
    split at hr
    · cases hr
    · rename_i sel run p' r hs
      split at hr
      · cases hr
      · rename_i ls' q' hr'
        cases hr
        have := ih p0 p' (l0 ++ [(sel, run)]) (h.step (stepWith_sound hs)) _ _ hr'
        simpa using this

/-- Inputs: every member evaluates one point with the fitness given. -/
def fitIns (f : Nat → Option ℚ) (i : Nat) : In := { pop := [[.fin 1]], res := [(f i).map Dbl.fin] }

/-- A pool of `n` new optimizers. -/
def newPool (cfg : PoolCfg) : Nat → Pool
  | 0 => Pool.init cfg optInfo
  | n + 1 => (newPool cfg n).push (Opt.new optInfo 0)

theorem newPool_hist (cfg : PoolCfg) (n : Nat) : Pool.Hist E (Opt.Fits optInfo.minimize) (Pool.init cfg optInfo) [] (newPool cfg n) := by
  induction n with
  | zero => exact .nil
  | succ n ih => exact ih.push ⟨by decide, by decide⟩

/-- What holds at the end of a computed history holds for some history. -/
theorem exists_hist {cfg : PoolCfg} {n : Nat} {w : List ((Nat → In) × List Nat)} {P : List (List Nat × List Nat) → Pool → Prop}
    [∀ ls p, Decidable (P ls p)]
    (h : (match Pool.runs E w (newPool cfg n) with | some (ls, p) => decide (P ls p) | none => false) = true) :
    ∃ ls p, Pool.Hist E (Opt.Fits optInfo.minimize) (Pool.init cfg optInfo) ls p ∧ P ls p := by
  split at h
  · rename_i ls p hr
    exact ⟨ls, p, by simpa using runs_sound w _ _ [] (newPool_hist cfg n) ls p hr, by simpa using h⟩
  · cases h

/-- Three members, the best fitness found by the second one, in the second step. -/
example : ∃ ls p, Pool.Hist optEnv (Opt.Fits optInfo.minimize) (Pool.init {} optInfo) ls p ∧
    (steppedOf ls = [0, 1, 2, 0, 1, 2] ∧ p.bestFitness = .ok (.fin 2) ∧ p.bestIdx = some 1 ∧ announced p.log = [.fin 5, .fin 4, .fin 3, .fin 2]) :=
  exists_hist (n := 3) (w := [(fitIns (fun i => some (5 - i)), [0, 1, 2]), (fitIns (fun i => some (i * i - 2 * i + 3)), [0, 1, 2])])
    (by decide +kernel)

/-- **C40 (finding).** A pool announces a best point with the worst possible fitness, the initial point, if the first member it looks at
could not evaluate its points: `on_new_best` is called for any first result. -/
theorem C40_failure_announced : ∃ ls p, Pool.Hist optEnv (Opt.Fits optInfo.minimize) (Pool.init {} optInfo) ls p ∧
    announced p.log = [optInfo.worstFitness] :=
  exists_hist (n := 1) (w := [(fitIns (fun _ => none), [0])]) (by decide +kernel)

/-- Predictions of -5 as soon as there are two samples. -/
def predEnv : OptEnv := { optEnv with regress := fun _ _ => ⟨.fin 0, .fin (-5)⟩ }

/-- **C41 (finding).** A member can be stepped although it has stopped (and has told its reporters so) and the pool has not: it was
selected before. -/
theorem C41_stopped_member_stepped : ∃ (cfg : PoolCfg) (ls : List (List Nat × List Nat)) (p p' : Pool) (ins : Nat → In)
    (sel run : List Nat) (r : Option Nat), Pool.Hist predEnv (Opt.Fits optInfo.minimize) (Pool.init cfg optInfo) ls p ∧
    Pool.Step predEnv ins p sel run p' r ∧ p.stopped = none ∧ ∃ i ∈ run, ∃ m, p.members[i]? = some m ∧ m.stopped.isSome := by
  have h : ∃ ls p, Pool.Hist predEnv (Opt.Fits optInfo.minimize)
      (Pool.init { window := 10, start := 1, lookAhead := 1, usePredicted := true, concurrent := 1 } optInfo) ls p ∧
      ((p.stopped = none ∧ (p.members[1]?.bind (·.stopped)).isSome) ∧
        ((p.stepWith predEnv (fitIns (fun _ => some 7)) []).map (fun x => x.2.1)) = some [1]) :=
    exists_hist (n := 2) (w := [(fitIns (fun _ => some 5), [0, 1]), (fitIns (fun _ => some 5), []), (fitIns (fun _ => some (-1)), [0, 1])])
      (by decide +kernel)
  obtain ⟨ls, p, hh, ⟨h1, h2⟩, h3⟩ := h
  rw [Option.map_eq_some_iff] at h3
  obtain ⟨⟨sel, run, p', r⟩, h3, h4⟩ := h3
  dsimp only at h4
  subst h4
  refine ⟨_, ls, p, p', _, sel, [1], r, hh, stepWith_sound h3, h1, 1, by simp, ?_⟩
  cases hm : p.members[1]? with
  | none => rw [hm] at h2; simp at h2
  | some m => rw [hm] at h2; exact ⟨m, rfl, by simpa using h2⟩

/-- **C41 (finding).** With predictions, a step may step nothing at all although a member has not stopped: a prediction equal to the worst
fitness is sorted among those of stopped members. -/
theorem C41_no_progress : ∃ (E : OptEnv) (p p' : Pool), Refill E p [] p' ∧ p.queue = [] ∧ 0 < p.cfg.active ∧ 0 < p.cfg.concurrent ∧
    ∃ m ∈ p.members, (m.testStop E).2 = .ok none := by
  let E : OptEnv := { optEnv with evalLin := fun _ _ => .fin Dbl.maxQ }
  let stoppedOne : Opt := { Opt.new optInfo 0 with stopped := some 0 }
  let running : Opt := (Opt.new optInfo 0).after E [.window 10, .step (fitIns (fun _ => some 5) 0), .step (fitIns (fun _ => some 5) 0)]
  let p : Pool := { Pool.init { start := 1 } optInfo with members := [stoppedOne, running] }
  have h : ((refillWith E [0, 1] p).map (fun x => x.1)) = some [] := by decide +kernel
  rw [Option.map_eq_some_iff] at h
  obtain ⟨⟨sel, p'⟩, h1, h2⟩ := h
  dsimp only at h2
  subst h2
  exact ⟨E, p, p', refillWith_sound h1, rfl, by decide, by decide, running, by simp [p], by decide +kernel⟩

/-- The hypotheses of `C41_progress` hold for a pool of new optimizers. -/
example : (∀ m ∈ (newPool {} 3).members, m.vis.stepCount < (newPool {} 3).cfg.start) ∧
    (∃ m ∈ (newPool {} 3).members, (m.testStop optEnv).2 = .ok none) := by
  constructor
  · decide +kernel
  · exact ⟨_, List.mem_cons_self .., by decide +kernel⟩

/-- A pool stops as soon as all members have (here: after errors). -/
example : ∃ ls p, Pool.Hist optEnv (Opt.Fits optInfo.minimize) (Pool.init {} optInfo) ls p ∧ p.stopped = some 2 :=
  exists_hist (n := 2) (w := [(fitIns (fun _ => none), [0, 1])]) (by decide +kernel)

/-! ## C68: the window of a member -/

theorem addCond_vis (m : Opt) (c : Cond) :
    (m.addCond c).vis = if c.minWindow > m.vis.capacity then m.vis.setWindow c.minWindow else m.vis := rfl

/-- **C68.** A member of a pool keeps exactly the last `prediction_window` samples (more if it gets a condition on the predicted fitness
that needs more), whatever it kept before. -/
theorem C68_member_window (p : Pool) (m : Opt) : ∃ m', (p.push m).members = p.members ++ [m'] ∧
    m'.vis.capacity = (if p.cfg.usePredicted then max p.cfg.window p.cfg.start else p.cfg.window) ∧
    m'.vis.history = m.vis.history.drop (m.vis.history.length - p.cfg.window) := by
  unfold Pool.push
  refine ⟨_, rfl, ?_⟩
  cases hu : p.cfg.usePredicted with
  | false => exact ⟨rfl, rfl⟩
  | true =>
    simp only [if_true]
    rw [addCond_vis]
    dsimp only
    by_cases h : p.cfg.start > p.cfg.window
    · rw [if_pos (show (Cond.predicted p.own.info.worstFitness p.cfg.lookAhead p.cfg.start).minWindow >
        (m.vis.setWindow p.cfg.window).capacity from h)]
      refine ⟨by show p.cfg.start = _; omega, ?_⟩
      show List.drop ((List.drop (m.vis.history.length - p.cfg.window) m.vis.history).length - p.cfg.start)
        (List.drop (m.vis.history.length - p.cfg.window) m.vis.history) = _
      rw [List.drop_drop, List.length_drop]
      congr 1
      omega
    · rw [if_neg (show ¬ (Cond.predicted p.own.info.worstFitness p.cfg.lookAhead p.cfg.start).minWindow >
        (m.vis.setWindow p.cfg.window).capacity from h)]
      exact ⟨by show p.cfg.window = _; omega, rfl⟩

/-- **C68 (finding).** So adding an optimizer to a pool can take away samples that one of its stop conditions asked for. -/
theorem C68_window_shrinks : ∃ (m : Opt) (n : Nat), (∃ c ∈ m.conds, c.minWindow = n) ∧ n ≤ m.vis.capacity ∧
    ∀ info, ∀ x ∈ ((Pool.init {} info).push m).members, x.vis.capacity < n := by
  refine ⟨(Opt.new optInfo 0).addCond (.minProgress (.fin 1) 200), 200, ⟨.minProgress (.fin 1) 200, by simp [Opt.addCond], rfl⟩,
    by decide +kernel, ?_⟩
  intro info x hx
  simp [Pool.push, Pool.init] at hx
  subst hx
  decide

/-! ## C69: the pool itself does not track fitness -/

theorem collect_own {p p' : Pool} {i : Nat} {x : Res Unit} (h : p.collect i = (p', x)) : p'.own = p.own := (collect_fields h).2.1

theorem exec_own {ins : Nat → In} {r t : RunSt} (h : RunExec E ins r t) :
    t.pool.own.history = r.pool.own.history ∧ t.pool.own.samples = r.pool.own.samples := by
  induction h with
  | nil => exact ⟨rfl, rfl⟩
  | snoc _ st ih =>
    cases st with
    | finish => exact ih
    | fail => exact ih
    | collect h hr hf hc => rw [collect_own hc]; exact ih
    | throws h hr hf hc => dsimp only; rw [collect_own hc]; exact ih
    | rethrow => exact ih
    | interrupt => exact ih

/-- **C69.** No fitness history is recorded for the pool itself, whatever window it has. -/
theorem C69_no_history (cfg : PoolCfg) (info : ObjInfo) {P : Opt → Prop} {ls : List (List Nat × List Nat)} {p : Pool}
    (h : Pool.Hist E P (Pool.init cfg info) ls p) : p.own.history = [] := by
  generalize hp0 : Pool.init cfg info = p0 at h
  induction h with
  | nil => subst hp0; simp [Pool.init, Opt.init, Opt.addCond, Cond.minWindow]
  | @step q q' ls sel run ins r h st ih =>
    cases st with
    | @mk p₁ p₂ _ t _ _ hd hne h1 h2 h3 hend h4 =>
      have hf := poolTest_fields E { t.pool.signal .postStep with own := { t.pool.own with stepCount := t.pool.own.stepCount + 1 } }
      rw [h4] at hf
      have hc := (core_ext hf.2.1).2.2.2.2.2.2.2.2.1
      have h1' : p₁.own = q.own := by rw [h1]; split <;> rfl
      refine hc.trans ((exec_own h3).1.trans ?_)
      show p₂.own.history = []
      rw [(refill_fields h2).2.1, h1', ih]
  | push h hm ih => exact ih
  | @addCond q ls c h ih =>
    unfold Pool.addCond; dsimp only; split
    · simp [Vis.setWindow, ih]
    · exact ih
  | interrupt h ih => exact ih
  | @test q ls h ih => exact (core_ext (poolTest_fields E q).2.1).2.2.2.2.2.2.2.2.1.trans ih

/-- **C69 (finding).** A `min_progress_condition` of a pool therefore fires after its minimum number of steps, however large the progress:
the progress is always 0. -/
theorem C69_min_progress (cfg : PoolCfg) (info : ObjInfo) {P : Opt → Prop} {ls : List (List Nat × List Nat)} {p : Pool}
    (h : Pool.Hist E P (Pool.init cfg info) ls p) (x : Dbl) (n : Nat) (hw : p.own.capacity ≠ 0) :
    (p.testCond E (.own (.minProgress x n))).2 = .ok (decide (n ≤ p.own.stepCount) && Dbl.lt (.fin 0) x) := by
  have hh := C69_no_history cfg info h
  have key : ∀ v : Vis, v.history = [] → v.capacity ≠ 0 → v.stepCount = p.own.stepCount →
      (Cond.test E (.minProgress x n) v).2 = .ok (decide (n ≤ p.own.stepCount) && Dbl.lt (.fin 0) x) := by
    intro v h1 h2 h3
    simp only [Cond.test, Vis.progress, h1, if_neg h2, h3]
    by_cases hn : n ≤ p.own.stepCount
    · simp [hn]
    · simp [hn]
  simp only [Pool.testCond, Cond.usesBest]
  cases hv : p.view with
  | ok v =>
    unfold Pool.view at hv
    cases hb : p.bestMember with
    | ok m => rw [hb] at hv; cases hv; exact key _ hh hw rfl
    | err => rw [hb] at hv; cases hv
    | ub => rw [hb] at hv; cases hv
  | err => exact key _ hh hw rfl
  | ub => exact key _ hh hw rfl

/-- Two steps in which the fitness goes from 5 to 1 (progress), then the pool is stopped by the condition (index 3) for lack of progress. -/
example : ∃ ls p, Pool.Hist optEnv (Opt.Fits optInfo.minimize) (Pool.init {} optInfo) ls p ∧
    (p.bestFitness = .ok (.fin 1) ∧ p.own.stepCount = 2 ∧ ((p.addCond (.minProgress (.fin (1/1000)) 2)).testStop optEnv).2 = .ok (some 3)) :=
  exists_hist (n := 1) (w := [(fitIns (fun _ => some 5), [0]), (fitIns (fun _ => some 1), [0])]) (by decide +kernel)

/-! ## C70: members are left alone while they run -/

/-- **C70.** With `concurrent_optimizations` at most 1 the pool never touches a member while it runs. -/
theorem C70_no_race {p : Pool} {ins : Nat → In} {r : RunSt} (hc : p.cfg.concurrent ≤ 1) (h : RunExec E ins p.launch r) : ¬ r.Race := by
  have hl : p.launch.futs = [] ∨ ∃ i, p.launch.futs = [i] := by
    show p.queue.take p.cfg.concurrent = [] ∨ ∃ i, p.queue.take p.cfg.concurrent = [i]
    have : (p.queue.take p.cfg.concurrent).length ≤ 1 := by rw [List.length_take]; omega
    match hq : p.queue.take p.cfg.concurrent, this with
    | [], _ => exact .inl rfl
    | [i], _ => exact .inr ⟨i, rfl⟩
  have hrun : p.launch.running = p.launch.futs := rfl
  have key : (∀ i ∈ r.running, i ∈ p.launch.futs) ∧ (r.futs = p.launch.futs ∨ r.futs = []) := by
    induction h with
    | nil => exact ⟨fun i hi => hi, .inl rfl⟩
    | snoc _ st ih =>
      obtain ⟨i1, i2⟩ := ih
      cases st with
      | finish => exact ⟨fun j hj => i1 j (List.mem_of_mem_erase hj), i2⟩
      | fail => exact ⟨fun j hj => i1 j (List.mem_of_mem_erase hj), i2⟩
      | @collect i is q hf hr hfl hcl =>
        refine ⟨i1, .inr ?_⟩
        rcases i2 with i2 | i2
        · rw [i2] at hf
          rcases hl with hl | ⟨j, hl⟩ <;> rw [hl] at hf <;> cases hf
          rfl
        · rw [i2] at hf; cases hf
      | throws => exact ⟨i1, .inr rfl⟩
      | rethrow => exact ⟨i1, .inr rfl⟩
      | interrupt => exact ⟨i1, i2⟩
  rintro ⟨i, is, m, hf, hr, -, hm, hx⟩
  have hemp : r.running = [] := by
    rcases key.2 with k | k
    · rw [k] at hf
      rcases hl with hl | ⟨j, hl⟩ <;> rw [hl] at hf <;> cases hf
      by_contra hne
      obtain ⟨a, ha⟩ := List.exists_mem_of_ne_nil _ hne
      have := key.1 a ha
      rw [hl] at this
      simp only [List.mem_singleton] at this
      exact hr (this ▸ ha)
    · rw [k] at hf; cases hf
  rw [hemp] at hx
  split at hx
  · exact hx.2 rfl
  · obtain ⟨k, -, hk⟩ := hx; simp at hk

/-- **C70 (finding).** With the default configuration the pool can read the current fitnesses of its best member while that member is
being stepped by another thread. -/
theorem C70_race : ∃ ls p sel p' r, ∃ ins : Nat → In, Pool.Hist optEnv (Opt.Fits optInfo.minimize) (Pool.init {} optInfo) ls p ∧
    Refill optEnv p sel p' ∧ RunExec optEnv ins p'.launch r ∧ r.Race := by
  have h : ∃ ls p, Pool.Hist optEnv (Opt.Fits optInfo.minimize) (Pool.init {} optInfo) ls p ∧
      ((match refillWith optEnv [0, 1] p with
        | none => false
        | some (_, q) => match q.members[0]? with
          | none => false
          | some m => match m.step optEnv (Opt.internal optEnv (fitIns (fun _ => some 9) 0)) with
            | (m', .ok _) => decide (q.bestIdx = some 1 ∧ q.launch.futs = [0, 1]) && !q.own.info.isBetter m'.vis.bestFitness q.best
            | _ => false) = true) :=
    exists_hist (n := 2) (w := [(fitIns (fun i => some (5 - i)), [0, 1])]) (by decide +kernel)
  obtain ⟨ls, p, hh, h⟩ := h
  split at h
  · cases h
  · rename_i sel q hq
    split at h
    · cases h
    · rename_i m hm
      split at h
      · rename_i m' x hs
        simp only [Bool.and_eq_true, decide_eq_true_eq, Bool.not_eq_true'] at h
        obtain ⟨⟨h1, h2⟩, h3⟩ := h
        have st : RunStep optEnv (fun _ => fitIns (fun _ => some 9) 0) q.launch _ :=
          .finish (i := 0) (by show 0 ∈ q.launch.futs; rw [h2]; simp) hm hs
        refine ⟨ls, p, sel, q, _, _, hh, refillWith_sound hq, RunExec.nil.snoc st, ?_⟩
        have hl : 0 < q.members.length := (List.getElem?_eq_some_iff.1 hm).1
        have hr : q.launch.running = [0, 1] := h2
        refine ⟨0, [1], m', h2, ?_, by simp [Pool.launch], ?_, ?_⟩
        · dsimp only; rw [hr]; decide
        · show (q.members.set 0 m')[0]? = some m'
          simp [hl]
        · show if q.bestIdx.isNone || q.own.info.isBetter m'.vis.bestFitness q.best then _ else ∃ k, q.bestIdx = some k ∧ k ∈ q.launch.running.erase 0
          rw [h1, h3, hr]
          exact ⟨1, rfl, by decide⟩
      · cases h

end Spot
