import Verif.Props.Nested

/-! # Pools of pools: stop conditions, predictions (C117) -/

namespace Spot

variable {E : OptEnv}

section
variable {M : Type} {I : Iface M} {info : ObjInfo} {Ok : M → Prop} (L : I.Lawful info Ok)
include L

theorem execG_own {r t : RunStG M} (h : RunExecG I r t) : t.pool.own.history = r.pool.own.history ∧ t.pool.conds = r.pool.conds ∧ t.pool.done ++ t.futs = r.pool.done ++ r.futs ∧
    (r.pool.own.stopRequested = true → t.pool.own.stopRequested = true) ∧ t.pool.own.stepCount = r.pool.own.stepCount := by
  induction h with
  | nil => exact ⟨rfl, rfl, rfl, id, rfl⟩
  | snoc _ st ih =>
    obtain ⟨h1, h2, h3, h4, h5⟩ := ih
    cases st with
    | finish => exact ⟨h1, h2, h3, h4, h5⟩
    | @collect i is p hf hr hc =>
      obtain ⟨m, b, -, -, -, e1, -, e2, e3, -⟩ := collectG_spec L hc
      exact ⟨by show p.own.history = _; rw [e1]; exact h1, e2.trans h2, by show p.done ++ is = _; rw [e3, ← h3, hf]; simp, fun h => by show p.own.stopRequested = true; rw [e1]; exact h4 h,
        by show p.own.stepCount = _; rw [e1]; exact h5⟩
    | interrupt => exact ⟨h1, h2, h3, fun _ => rfl, h5⟩

/-- The conditions of a pool begin with the three of the constructors, and it has no history. -/
def PoolG.Std (p : PoolG M) : Prop := p.own.history = [] ∧ ∃ cs, p.conds = .own .abort :: .own (.error false) :: .allStopped :: cs

theorem stepG_facts {p p' : PoolG M} {r : Option Nat} (st : PoolG.Step I E p p' r) : p'.own.history = p.own.history ∧ p'.conds = p.conds ∧ p'.own.stepCount = p.own.stepCount + 1 ∧
    ∃ p₁ p₂ sel, p₁ = (if p.own.stepCount = 0 then p.signal .start else p).signal .preStep ∧ RefillG I p₁ sel p₂ ∧ p'.done = p.done ++ p₂.queue.take p₂.cfg.concurrent := by
  cases st with
  | @mk p₁ p₂ _ t sel _ hd hne h1 h2 h3 hend h4 =>
    have hf := testStopG_fields (Ok := Ok) L E { t.pool.signal .postStep with own := { t.pool.own with stepCount := t.pool.own.stepCount + 1 } }
    rw [h4] at hf
    have hc := core_ext hf.2.1
    obtain ⟨g1, g2, g3, -, g5⟩ := execG_own L h3
    obtain ⟨-, f2, f3, -, -, f6⟩ := refillG_fields (Ok := Ok) L h2
    have e1 : p₁.own = p.own ∧ p₁.conds = p.conds ∧ p₁.done = p.done := by rw [h1]; split <;> exact ⟨rfl, rfl, rfl⟩
    refine ⟨?_, ?_, ?_, p₁, p₂, sel, h1, h2, ?_⟩
    · refine hc.2.2.2.2.2.2.2.2.1.trans (g1.trans ?_)
      show p₂.own.history = _
      rw [f2, e1.1]
    · exact hf.2.2.1.trans (g2.trans (f3.trans e1.2.1))
    · refine hc.2.1.trans ?_
      show t.pool.own.stepCount + 1 = _
      rw [g5]
      show p₂.own.stepCount + 1 = _
      rw [f2, e1.1]
    · rw [hend.2, List.append_nil] at g3
      refine hf.2.2.2.2.2.trans (g3.trans ?_)
      show p₂.done ++ _ = _
      rw [f6, e1.2.2]; rfl

theorem histG_std {p p' : PoolG M} (h : PoolG.Hist I E Ok p p') (h0 : p.Std) : p'.Std := by
  induction h with
  | nil => exact h0
  | step h st ih => obtain ⟨h1, h2, -⟩ := stepG_facts L st; exact ⟨h1.trans ih.1, by rw [h2]; exact ih.2⟩
  | push h hm ih => exact ih
  | @addCond q c h ih =>
    obtain ⟨i1, cs, i2⟩ := ih
    refine ⟨?_, cs ++ [.own c], by simp [PoolG.addCond, i2]⟩
    unfold PoolG.addCond; dsimp only; split
    · simp [Vis.setWindow, i1]
    · exact i1
  | @setWindow q n h ih => exact ⟨by simp [Vis.setWindow, ih.1], ih.2⟩
  | @predicted q n h ih => exact ⟨(core_ext (predicted_core E q.own n)).2.2.2.2.2.2.2.2.1.trans ih.1, ih.2⟩
  | @setTarget q f cs h hc ih =>
    obtain ⟨i1, ds, i2⟩ := ih
    refine ⟨i1, ?_⟩
    rw [i2] at hc
    simp only [setTargetP, Option.map_map, Option.map_eq_some_iff] at hc
    obtain ⟨es, -, rfl⟩ := hc
    exact ⟨es, rfl⟩
  | interrupt h ih => exact ih
  | @test q h ih =>
    have hf := testStopG_fields (Ok := Ok) L E q
    exact ⟨(core_ext hf.2.1).2.2.2.2.2.2.2.2.1.trans ih.1, by rw [hf.2.2.1]; exact ih.2⟩

omit L

theorem initG_std (cfg : PoolCfg) (i : ObjInfo) : (PoolG.init cfg i : PoolG M).Std :=
  ⟨by simp [PoolG.init, Opt.init, Opt.addCond, Cond.minWindow], [], by simp [PoolG.init, Opt.init, Opt.addCond]⟩

theorem testAllG_spec : ∀ (ms : List M) (b : Bool), (testAllG I ms).2 = .ok b →
    (b = true ↔ ∀ m ∈ ms, ∃ k, (I.testStop m).2 = .ok (some k)) ∧ (testAllG I ms).1 = ms.map (fun m => (I.testStop m).1)
  | [], b, h => by cases h; simp [testAllG]
  | m :: ms, b, h => by
    simp only [testAllG] at h ⊢
    rcases h1 : I.testStop m with ⟨m', r⟩
    rw [h1] at h
    cases r with
    | ok k =>
      dsimp only at h ⊢
      have ih := testAllG_spec ms
      rcases h2 : testAllG I ms with ⟨ms', r'⟩
      rw [h2] at h ih
      cases r' with
      | ok b' =>
        cases h
        obtain ⟨i1, i2⟩ := ih b' rfl
        refine ⟨?_, by simp [h1, ← i2]⟩
        simp only [Bool.and_eq_true, List.mem_cons, forall_eq_or_imp, h1, i1]
        refine and_congr ?_ Iff.rfl
        cases k <;> simp
      | err => cases h
      | ub => cases h
    | err => cases h
    | ub => cases h

theorem view_own {p : PoolG M} {v : Vis} (h : p.view I = .ok v) : v.stopRequested = p.own.stopRequested ∧ v.history = p.own.history ∧ v.stepCount = p.own.stepCount ∧
    v.capacity = p.own.capacity ∧ v.info = p.own.info := by
  unfold PoolG.view at h
  obtain ⟨m, -, h⟩ := Res.bind_eq_ok.1 h
  obtain ⟨w, -, h⟩ := Res.bind_eq_ok.1 h
  obtain rfl := Res.ok.inj h
  exact ⟨rfl, rfl, rfl, rfl, rfl⟩

/-- A condition that does not use the overridden getters. -/
theorem testCondG_plain {p : PoolG M} {c : Cond} {b : Res Bool} (hc : c.usesBest p.own = false)
    (h : ∀ v : Vis, v.stopRequested = p.own.stopRequested → v.history = p.own.history → v.stepCount = p.own.stepCount → v.capacity = p.own.capacity → v.info = p.own.info →
      (c.test E v).2 = b) : ∃ p', p.testCond I E (.own c) = (p', b) ∧ p'.members = p.members := by
  simp only [PoolG.testCond, hc]
  cases hv : p.view I with
  | ok v =>
    obtain ⟨h1, h2, h3, h4, h5⟩ := view_own hv
    exact ⟨_, Prod.ext rfl (h v h1 h2 h3 h4 h5), rfl⟩
  | err => exact ⟨_, Prod.ext rfl (h _ rfl rfl rfl rfl rfl), rfl⟩
  | ub => exact ⟨_, Prod.ext rfl (h _ rfl rfl rfl rfl rfl), rfl⟩

theorem testLoopG_idx : ∀ (cs : List PCond) (k : Nat) (q : PoolG M) (j : Nat), (PoolG.testLoop I E k cs q).2 = .ok (some j) → k ≤ j
  | [], k, q, j, h => by cases h
  | c :: cs, k, q, j, h => by
    simp only [PoolG.testLoop] at h
    split at h
    · cases h; exact le_rfl
    · have := testLoopG_idx cs _ _ _ h; omega
    · cases h
    · cases h

theorem testStopG_loop {p : PoolG M} (hs : p.stopped = none) : (p.testStop I E).2 = (PoolG.testLoop I E 0 p.conds p).2 := by
  unfold PoolG.testStop
  rw [hs]
  dsimp only
  rcases PoolG.testLoop I E 0 p.conds p with ⟨p', r'⟩
  cases r' with
  | ok k => cases k <;> rfl
  | err => rfl
  | ub => rfl

end

/-- **C117.** A pool of pools that has not been interrupted stops with its own condition (the third) exactly if every member, optimizer or pool, has a stop condition; otherwise only a
condition added by the user (the fourth or later) can stop it. -/
theorem C117_stops_iff (n : Nat) (cfg : PoolCfg) (info : ObjInfo) {p : PoolG (Nest n)}
    (h : PoolG.Hist (Nest.iface E n) E (Nest.Built E info.minimize n) (PoolG.init cfg info) p) (hs : p.stopped = none) (hr : p.own.stopRequested = false) {r : Option Nat}
    (ht : (p.testStop (Nest.iface E n) E).2 = .ok r) :
    (r = some 2 ↔ ∀ m ∈ p.members, ∃ k, ((Nest.iface E n).testStop m).2 = .ok (some k)) ∧ (∀ k, r = some k → 2 ≤ k) := by
  obtain ⟨-, cs, hcs⟩ := histG_std (nest_lawful E info n) h (initG_std cfg info)
  obtain ⟨q1, e1, m1⟩ : ∃ q, p.testCond (Nest.iface E n) E (.own .abort) = (q, .ok false) ∧ q.members = p.members :=
    testCondG_plain rfl fun v h1 _ _ _ _ => by show Res.ok v.stopRequested = _; rw [h1, hr]
  obtain ⟨q2, e2, m2⟩ : ∃ q, q1.testCond (Nest.iface E n) E (.own (.error false)) = (q, .ok false) ∧ q.members = q1.members :=
    testCondG_plain rfl fun v _ _ _ _ _ => rfl
  have hl := testStopG_loop (I := Nest.iface E n) (E := E) hs
  rw [ht, hcs] at hl
  simp only [PoolG.testLoop, e1, e2] at hl
  rcases h3 : q2.testCond (Nest.iface E n) E .allStopped with ⟨q3, r3⟩
  rw [h3] at hl
  have hall : ∀ b, r3 = .ok b → (b = true ↔ ∀ m ∈ p.members, ∃ k, ((Nest.iface E n).testStop m).2 = .ok (some k)) := by
    rintro b rfl
    have := (testAllG_spec q2.members b (congrArg Prod.snd h3)).1
    rw [m2, m1] at this
    exact this
  cases r3 with
  | ok b =>
    cases b with
    | true =>
      obtain rfl := Res.ok.inj hl
      exact ⟨iff_of_true rfl ((hall _ rfl).1 rfl), fun k hk => by cases hk; decide⟩
    | false =>
      dsimp only at hl
      refine ⟨iff_of_false ?_ (fun hc => by simpa using (hall _ rfl).2 hc), ?_⟩
      · rintro rfl
        have := testLoopG_idx _ _ _ _ hl.symm
        omega
      · rintro k rfl
        have := testLoopG_idx _ _ _ _ hl.symm
        omega
  | err => cases hl
  | ub => cases hl

/-- **C117.** After `interrupt()` the tests of the stop conditions find one: of the pool, and of every pool in it, at any depth; of each optimizer in it because it is requested to stop
(C117_interrupt). -/
theorem C117_interrupted (n : Nat) (cfg : PoolCfg) (info : ObjInfo) {p : PoolG (Nest n)}
    (h : PoolG.Hist (Nest.iface E n) E (Nest.Built E info.minimize n) (PoolG.init cfg info) p) :
    (∃ k, ((p.interrupt (Nest.iface E n)).testStop (Nest.iface E n) E).2 = .ok (some k)) ∧ (p.stopped = none → ((p.interrupt (Nest.iface E n)).testStop (Nest.iface E n) E).2 = .ok (some 0)) := by
  have h0 : p.stopped = none → ((p.interrupt (Nest.iface E n)).testStop (Nest.iface E n) E).2 = .ok (some 0) := by
    intro hs
    obtain ⟨-, cs, hcs⟩ := histG_std (nest_lawful E info n) h (initG_std cfg info)
    rw [testStopG_loop (show (p.interrupt (Nest.iface E n)).stopped = none from hs)]
    obtain ⟨q, e, -⟩ : ∃ q, (p.interrupt (Nest.iface E n)).testCond (Nest.iface E n) E (.own .abort) = (q, .ok true) ∧ q.members = (p.interrupt (Nest.iface E n)).members :=
      testCondG_plain rfl fun v h1 _ _ _ _ => by show Res.ok v.stopRequested = _; rw [h1]; rfl
    rw [show (p.interrupt (Nest.iface E n)).conds = _ from hcs]
    simp only [PoolG.testLoop, e]
  refine ⟨?_, h0⟩
  cases hs : p.stopped with
  | none => exact ⟨0, h0 hs⟩
  | some k =>
    refine ⟨k, ?_⟩
    unfold PoolG.testStop
    rw [show (p.interrupt (Nest.iface E n)).stopped = some k from hs]

/-- The members of a nested pool, and theirs, are what `Built` says, at any time. -/
theorem C117_members (n : Nat) (cfg : PoolCfg) (info : ObjInfo) {p : PoolG (Nest n)}
    (h : PoolG.Hist (Nest.iface E n) E (Nest.Built E info.minimize n) (PoolG.init cfg info) p) : ∀ m ∈ p.members, Nest.Built E info.minimize n m :=
  (any_best (nest_lawful E info n) ⟨cfg, info, rfl, h⟩).mem

/-- **C117 (finding).** A pool in a pool has no fitness history of its own, whatever happens in it. What it predicts for any number of steps ahead is therefore 0, and the pool it is in
ranks it as if its fitness were 0. -/
theorem C117_predicts_zero (n : Nat) {min : Bool} {p : PoolG (Nest n)} (h : Nest.Built E min (n + 1) (.inr p)) (hw : p.own.capacity ≠ 0) (ahead : Nat) :
    ((Nest.iface E (n + 1)).predicted ahead (.inr p)).2 = .ok (.fin 0) := by
  obtain ⟨cfg, info, rfl, h⟩ := h
  obtain ⟨h0, -⟩ := histG_std (nest_lawful E info n) h (initG_std cfg info)
  show (p.own.predictedFitness E ahead).2 = _
  unfold Vis.predictedFitness
  rw [if_neg hw, h0]
  rfl

/-- **C117 (finding).** With `use_predicted_fitness`, the condition added to a pool in a pool thus compares 0 with the best fitness: after the minimum number of steps the inner pool is
stopped if and only if 0 is not better than the best fitness found so far by the outer one, whatever the inner pool has found. -/
theorem C117_target (n : Nat) {min : Bool} {p : PoolG (Nest n)} (h : Nest.Built E min (n + 1) (.inr p)) (hw : p.own.capacity ≠ 0) (f : Dbl) (ahead m : Nat) :
    (p.testCond (Nest.iface E n) E (.own (.predicted f ahead m))).2 = .ok (decide (m ≤ p.own.stepCount) && !p.own.info.isBetter (.fin 0) f) := by
  obtain ⟨cfg, info, rfl, h⟩ := h
  obtain ⟨h0, -⟩ := histG_std (nest_lawful E info n) h (initG_std cfg info)
  obtain ⟨q, e, -⟩ : ∃ q, p.testCond (Nest.iface E n) E (.own (.predicted f ahead m)) = (q, .ok (decide (m ≤ p.own.stepCount) && !p.own.info.isBetter (.fin 0) f)) ∧ q.members = p.members := by
    refine testCondG_plain rfl fun v _ h2 h3 h4 h5 => ?_
    unfold Cond.test Vis.predictedFitness
    dsimp only
    rw [h4, h2, h3, h5, h0, if_neg hw]
    by_cases hm : m ≤ p.own.stepCount
    · simp [hm]
    · simp [hm]
  rw [e]

/-- **C117.** A step of a pool in which a member is a pool none of whose members has been stepped does not end well when members have to be selected: the getters of the inner pool are
used for a text. -/
theorem C117_unstepped (n : Nat) (cfg : PoolCfg) (info : ObjInfo) {p p' : PoolG (Nest (n + 1))} {r : Option Nat}
    (h : PoolG.Hist (Nest.iface E (n + 1)) E (Nest.Built E info.minimize (n + 1)) (PoolG.init cfg info) p) (hq : p.queue = []) {q : PoolG (Nest n)} (hm : .inr q ∈ p.members)
    (hd : q.done = []) : ¬ PoolG.Step (Nest.iface E (n + 1)) E p p' r := by
  intro st
  cases st with
  | @mk p₁ p₂ _ t sel _ hd' hne h1 h2 h3 hend h4 =>
    have hb := C117_members (n + 1) cfg info h _ hm
    obtain ⟨cfg', info', hi, hh⟩ := hb
    rw [← hi] at hh
    have hv : bestsOf ((Nest.iface E (n + 1)).view (.inr q)) = .ub := by
      show bestsOf (q.view (Nest.iface E n)) = _
      rw [C117_no_best_yet n cfg' info' hh hd]; rfl
    have e1 : p₁.members = p.members ∧ p₁.queue = p.queue := by rw [h1]; split <;> exact ⟨rfl, rfl⟩
    obtain ⟨f1, -⟩ := refillG_fields (nest_lawful E info (n + 1)) h2
    rw [e1.1] at f1
    obtain ⟨k, hk⟩ := List.getElem?_of_mem hm
    obtain ⟨m', hm', hl⟩ := f1.get hk
    cases h2 with
    | keep h => exact h (e1.2.trans hq)
    | fill h hp ho hf hb ht =>
      refine ht m' (List.mem_of_getElem? hm') ?_
      have := hl.2.trans hv
      unfold bestsOf at this
      cases hx : (Nest.iface E (n + 1)).view m' with
      | ok v => rw [hx] at this; cases this
      | err => rw [hx] at this; cases this
      | ub => rfl

/-- **C117.** Which members count as stepped: at every step, the members at the front of the queue, as many as `concurrent_optimizations_` says. -/
theorem C117_stepped (n : Nat) {p p' : PoolG (Nest n)} {r : Option Nat} (h : PoolG.Step (Nest.iface E n) E p p' r) :
    ∃ p₁ p₂ sel, p₁ = (if p.own.stepCount = 0 then p.signal .start else p).signal .preStep ∧ RefillG (Nest.iface E n) p₁ sel p₂ ∧
      p'.done = p.done ++ p₂.queue.take p₂.cfg.concurrent ∧ p'.own.stepCount = p.own.stepCount + 1 := by
  obtain ⟨-, -, h1, p₁, p₂, sel, h2, h3, h4⟩ := stepG_facts (nest_lawful E p.own.info n) h
  exact ⟨p₁, p₂, sel, h2, h3, h4, h1⟩

end Spot
