import Verif.Lemmas.PoolExec
import Verif.Props.Best

/-! # Properties of optimizer_pool (C40 - C42, C68 - C70) -/

namespace Spot

variable {E : OptEnv}

theorem init_own (cfg : PoolCfg) (info : ObjInfo) : (Pool.init cfg info).own.info = info := by
  simp [Pool.init, Opt.init, Opt.addCond, Cond.minWindow]

/-- In a new pool nothing has been stepped. -/
theorem init_best (cfg : PoolCfg) (info : ObjInfo) : PoolBest [] [] (Pool.init cfg info) :=
  ⟨by simp [Pool.init], by simp, by simp [Pool.init], by simp⟩

/-! ## C40 -/

/-- **C40.** After any history of a pool (steps with any schedule of the member threads, new members, interrupts, conditions) in which
some member has been stepped: `best_fitness()` and `best_point()` are those of one member that has been stepped, and no member that has
been stepped has a better best fitness. -/
theorem C40_best (cfg : PoolCfg) (info : ObjInfo) {ls : List (List Nat × List Nat)} {p : Pool}
    (h : Pool.Hist E (Opt.Fits info.minimize) (Pool.init cfg info) ls p) (hs : steppedOf ls ≠ []) :
    ∃ k ∈ steppedOf ls, ∃ m, p.members[k]? = some m ∧ p.bestFitness = .ok m.vis.bestFitness ∧ p.bestPoint = .ok m.vis.bestPoint ∧
      ∀ i ∈ steppedOf ls, ∃ x, p.members[i]? = some x ∧ info.isBetter x.vis.bestFitness m.vis.bestFitness = false := by
  have h' : Pool.Hist E (Opt.Fits (Pool.init cfg info).own.info.minimize) (Pool.init cfg info) ls p := by rw [init_own]; exact h
  obtain ⟨I, hi⟩ := hist_best h' (init_best cfg info)
  rw [init_own] at hi
  rw [List.nil_append] at I
  cases hb : p.bestIdx with
  | none =>
    obtain ⟨i, hi⟩ := List.exists_mem_of_ne_nil _ hs
    have := I.noneYet hb i hi
    simp at this
  | some k =>
    obtain ⟨h1, h2, m, hm, h3⟩ := I.isBest k hb
    have h3 : m.vis.bestFitness = p.best := by simpa using h3
    have hbm : p.bestMember = .ok m := by unfold Pool.bestMember; rw [hb]; dsimp only; rw [hm]
    refine ⟨k, h1, m, hm, ?_, ?_, ?_⟩
    · unfold Pool.bestFitness; rw [hbm]; rfl
    · unfold Pool.bestPoint; rw [hbm]; rfl
    · intro i hi'
      obtain ⟨x, hx, h4⟩ := I.low i hi' (by simp)
      exact ⟨x, hx, by rw [h3, ← hi]; exact h4⟩

/-- `best_fitness_` is kept or gets better. -/
def Pool.Improves (p q : Pool) : Prop :=
  p.bestIdx.isSome → q.bestIdx.isSome ∧ (q.best = p.best ∨ p.own.info.isBetter q.best p.best = true)

theorem Pool.Improves.trans {p q r : Pool} (h : p.Improves q) (h' : q.Improves r) (hi : q.own.info = p.own.info) : p.Improves r := by
  intro hp
  obtain ⟨h1, h2⟩ := h hp
  obtain ⟨h3, h4⟩ := h' h1
  refine ⟨h3, ?_⟩
  rw [hi] at h4
  rcases h4 with h4 | h4
  · rw [h4]; exact h2
  · rcases h2 with h2 | h2
    · rw [h2] at h4; exact .inr h4
    · exact .inr (better_trans h4 h2)

theorem exec_improves {ins : Nat → In} {r t : RunSt} (h : RunExec E ins r t) (ht : t.threw = false) : r.pool.Improves t.pool := by
  induction h with
  | nil => exact fun h => ⟨h, .inl rfl⟩
  | @snoc s t hx st ih =>
    have hi := exec_info hx
    cases st with
    | finish => exact (ih ht).trans (fun h => ⟨h, .inl rfl⟩) hi
    | fail => exact (ih ht).trans (fun h => ⟨h, .inl rfl⟩) hi
    | @collect i is p h hr hf hc =>
      refine (ih ht).trans ?_ hi
      obtain ⟨m, hm, hb⟩ := collect_best hc
      intro hs
      split at hb
      · rename_i hc
        refine ⟨by rw [hb.1]; rfl, ?_⟩
        rcases hc with hc | hc
        · rw [hc] at hs; cases hs
        · exact .inr (by rw [hb.2]; exact hc)
      · exact ⟨by rw [hb.1]; exact hs, .inl hb.2⟩
    | throws => cases ht
    | rethrow => cases ht
    | interrupt => exact (ih ht).trans (fun h => ⟨h, .inl rfl⟩) hi

theorem hist_improves {P : Opt → Prop} {p q : Pool} {ls} (h : Pool.Hist E P p ls q) : p.Improves q ∧ q.own.info = p.own.info := by
  induction h with
  | nil => exact ⟨fun h => ⟨h, .inl rfl⟩, rfl⟩
  | @step q q' ls sel run ins r h st ih =>
    cases st with
    | @mk p₁ p₂ _ t _ _ hd hne h1 h2 h3 hend h4 =>
      have hf := poolTest_fields E { t.pool.signal .postStep with own := { t.pool.own with stepCount := t.pool.own.stepCount + 1 } }
      rw [h4] at hf
      have hci := (core_ext hf.2.1).1
      obtain ⟨f1, f2, f3, f4, f5, f6, f7, f8, f9⟩ := refill_fields h2
      have hx := exec_info h3
      have h1' : p₁.own = q.own ∧ p₁.best = q.best ∧ p₁.bestIdx = q.bestIdx := by rw [h1]; split <;> exact ⟨rfl, rfl, rfl⟩
      have hinfo : q'.own.info = q.own.info := hci.trans (hx.trans (by
        show p₂.own.info = _; rw [f2, h1'.1]))
      refine ⟨ih.1.trans ?_ ih.2, hinfo.trans ih.2⟩
      have hi := exec_improves h3 hend.2.2
      intro hs
      have hs2 : p₂.launch.pool.bestIdx.isSome := by
        show p₂.bestIdx.isSome; rw [f6, h1'.2.2]; exact hs
      obtain ⟨g1, g2⟩ := hi hs2
      have e1 : q'.bestIdx = t.pool.bestIdx := hf.2.2.2.2.2.2
      have e2 : q'.best = t.pool.best := hf.2.2.2.2.2.1
      have e3 : p₂.launch.pool.best = q.best := f5.trans h1'.2.1
      have e4 : p₂.launch.pool.own.info = q.own.info := by show p₂.own.info = _; rw [f2, h1'.1]
      rw [e1, e2, ← e3, ← e4]
      exact ⟨g1, g2⟩
  | push h hm ih => exact ⟨ih.1.trans (fun h => ⟨h, .inl rfl⟩) ih.2, ih.2⟩
  | @addCond q ls c h ih =>
    have : (q.addCond c).own.info = q.own.info := by unfold Pool.addCond; dsimp only; split <;> rfl
    exact ⟨ih.1.trans (fun h => ⟨h, .inl rfl⟩) ih.2, this.trans ih.2⟩
  | interrupt h ih => exact ⟨ih.1.trans (fun h => ⟨h, .inl rfl⟩) ih.2, ih.2⟩
  | @test q ls h ih =>
    have hf := poolTest_fields E q
    refine ⟨ih.1.trans (fun h => ?_) ih.2, (core_ext hf.2.1).1.trans ih.2⟩
    rw [hf.2.2.2.2.2.1, hf.2.2.2.2.2.2]
    exact ⟨h, .inl rfl⟩

theorem Hist_trans {P : Opt → Prop} {p q r : Pool} {ls ls'} (h : Pool.Hist E P p ls q) (h' : Pool.Hist E P q ls' r) :
    Pool.Hist E P p (ls ++ ls') r := by
  induction h' with
  | nil => simpa using h
  | step _ st ih => rw [← List.append_assoc]; exact ih.step st
  | push _ hm ih => exact ih.push hm
  | addCond _ ih => exact ih.addCond
  | interrupt _ ih => exact ih.interrupt
  | test _ ih => exact ih.test

/-- **C40.** The best fitness of a pool never gets worse. -/
theorem C40_monotone (cfg : PoolCfg) (info : ObjInfo) {ls ls' : List (List Nat × List Nat)} {p q : Pool}
    (h : Pool.Hist E (Opt.Fits info.minimize) (Pool.init cfg info) ls p) (h' : Pool.Hist E (Opt.Fits info.minimize) p ls' q) {b b' : Dbl}
    (hb : p.bestFitness = .ok b) (hb' : q.bestFitness = .ok b') : info.isBetter b b' = false ∧ (b' = b ∨ info.isBetter b' b = true) := by
  have best : ∀ {ls : List (List Nat × List Nat)} {p : Pool} {b : Dbl}, Pool.Hist E (Opt.Fits info.minimize) (Pool.init cfg info) ls p →
      p.bestFitness = .ok b → p.bestIdx.isSome ∧ b = p.best ∧ p.own.info = info := by
    intro ls p b h hb
    have h' : Pool.Hist E (Opt.Fits (Pool.init cfg info).own.info.minimize) (Pool.init cfg info) ls p := by rw [init_own]; exact h
    obtain ⟨I, hi⟩ := hist_best h' (init_best cfg info)
    rw [init_own] at hi
    cases hx : p.bestIdx with
    | none => unfold Pool.bestFitness Pool.bestMember at hb; rw [hx] at hb; cases hb
    | some k =>
      obtain ⟨h1, h2, m, hm, h3⟩ := I.isBest k hx
      have h3 : m.vis.bestFitness = p.best := by simpa using h3
      unfold Pool.bestFitness Pool.bestMember at hb
      rw [hx] at hb; dsimp only at hb; rw [hm] at hb
      cases hb
      exact ⟨rfl, h3, hi⟩
  obtain ⟨a1, a2, a3⟩ := best h hb
  obtain ⟨b1, b2, b3⟩ := best (Hist_trans h h') hb'
  obtain ⟨c1, c2⟩ := (hist_improves h').1 a1
  rw [a3, ← a2, ← b2] at c2
  refine ⟨?_, c2⟩
  rcases c2 with c2 | c2
  · rw [c2]; exact better_irrefl _ _
  · by_contra hcon
    rw [Bool.not_eq_false] at hcon
    have := better_trans hcon c2
    rw [better_irrefl] at this; cases this

/-- The fitnesses announced by `on_new_best`. -/
def announced (log : List Event) : List Dbl :=
  log.filterMap fun e => match e with
    | .newBest _ f => some f
    | _ => none

/-- Announcements so far, up to the current best fitness. -/
structure AnnInv (p : Pool) : Prop where
  sorted : (announced p.log).Pairwise (fun a b => p.own.info.isBetter b a = true)
  last : (announced p.log).getLast? = if p.bestIdx.isSome then some p.best else none

theorem AnnInv.congr {p q : Pool} (I : AnnInv p) (h1 : announced q.log = announced p.log) (h2 : q.own.info = p.own.info)
    (h3 : q.bestIdx = p.bestIdx) (h4 : q.best = p.best) : AnnInv q :=
  ⟨by rw [h1, h2]; exact I.sorted, by rw [h1, h3, h4]; exact I.last⟩

theorem collect_log {p p' : Pool} {i : Nat} (h : p.collect i = (p', .ok ())) : ∃ m fs, p.members[i]? = some m ∧
    p'.log = p.log ++ (if p.bestIdx = none ∨ p.own.info.isBetter m.vis.bestFitness p.best = true then
      [.newBest m.vis.bestPoint m.vis.bestFitness, .postEvaluate [] fs true] else [.postEvaluate [] fs false]) := by
  unfold Pool.collect at h
  split at h
  · cases h
  · rename_i m hm
    have hc : (p.bestIdx.isNone || p.own.info.isBetter m.vis.bestFitness p.best) = true ↔
        p.bestIdx = none ∨ p.own.info.isBetter m.vis.bestFitness p.best = true := by
      simp
    dsimp only at h
    generalize hnb : (p.bestIdx.isNone || p.own.info.isBetter m.vis.bestFitness p.best) = nb at h hc
    have fin : ∀ (q : Pool) (es : List Event), q.log = p.log ++ es → ∀ nb' : Bool, (match q.bestMember with
        | .ok b => (q.signal (.postEvaluate [] b.vis.curFitnesses nb'), Res.ok ())
        | _ => (q, .ub)) = (p', .ok ()) → ∃ fs, p'.log = p.log ++ (es ++ [.postEvaluate [] fs nb']) := by
      intro q es hq nb' h
      split at h
      · rename_i b hb
        cases h
        exact ⟨b.vis.curFitnesses, by simp only [Pool.signal, hq, List.append_assoc]⟩
      · cases h
    cases nb with
    | false =>
      rw [if_pos (by simp)] at h
      obtain ⟨fs, hfs⟩ := fin p [] (by simp) false h
      exact ⟨m, fs, hm, by rw [if_neg (by simp [← hc])]; exact hfs⟩
    | true =>
      cases hu : p.cfg.usePredicted with
      | false =>
        simp only [hu, Bool.and_false, Bool.false_eq_true, if_false, if_true] at h
        obtain ⟨fs, hfs⟩ := fin _ [.newBest m.vis.bestPoint m.vis.bestFitness] (by simp [Pool.signal]) true h
        exact ⟨m, fs, hm, by rw [if_pos (by simp [← hc])]; exact hfs⟩
      | true =>
        simp only [hu, Bool.and_true, if_true] at h
        split at h
        · obtain ⟨fs, hfs⟩ := fin _ [.newBest m.vis.bestPoint m.vis.bestFitness] (by simp [Pool.signal]) true h
          exact ⟨m, fs, hm, by rw [if_pos (by simp [← hc])]; exact hfs⟩
        · cases h

theorem AnnInv.collect {p p' : Pool} {i : Nat} (I : AnnInv p) (h : p.collect i = (p', .ok ())) : AnnInv p' := by
  obtain ⟨m, fs, hm, hl⟩ := collect_log h
  obtain ⟨m', hm', hb⟩ := collect_best h
  rw [hm] at hm'; cases hm'
  have ho := (collect_fields h).2.1
  split at hb
  · rename_i hc
    rw [if_pos hc] at hl
    have ha : announced p'.log = announced p.log ++ [m.vis.bestFitness] := by rw [hl]; simp [announced]
    refine ⟨?_, by rw [ha, hb.1, hb.2]; simp⟩
    rw [ha, ho, List.pairwise_append]
    refine ⟨I.sorted, by simp, ?_⟩
    intro a ha' b hb'
    simp only [List.mem_singleton] at hb'
    subst hb'
    have hl := I.last
    have hne : announced p.log ≠ [] := List.ne_nil_of_mem ha'
    rcases hc with hc | hc
    · rw [hc] at hl; simp [hne] at hl
    · have hs : p.bestIdx.isSome := by
        by_contra hcon
        rw [if_neg hcon] at hl
        simp [hne] at hl
      rw [if_pos hs] at hl
      obtain ⟨pre, hpre⟩ := List.getLast?_eq_some_iff.1 hl
      have hso := I.sorted
      rw [hpre, List.pairwise_append] at hso
      rw [hpre] at ha'
      rcases List.mem_append.1 ha' with h1 | h1
      · exact better_trans hc (hso.2.2 a h1 p.best (by simp))
      · simp only [List.mem_singleton] at h1; subst h1; exact hc
  · rename_i hc
    rw [if_neg hc] at hl
    exact I.congr (by rw [hl]; simp [announced]) (by rw [ho]) hb.1 hb.2

theorem AnnInv.exec {ins : Nat → In} {r t : RunSt} (h : RunExec E ins r t) (ht : t.threw = false) (I : AnnInv r.pool) : AnnInv t.pool := by
  induction h with
  | nil => exact I
  | snoc hx st ih =>
    cases st with
    | finish => exact (ih ht).congr rfl rfl rfl rfl
    | fail => exact (ih ht).congr rfl rfl rfl rfl
    | collect h hr hf hc => exact (ih ht).collect hc
    | throws => cases ht
    | rethrow => cases ht
    | interrupt => exact (ih ht).congr rfl rfl rfl rfl

theorem poolTest_log (p : Pool) : ∃ es, (p.testStop E).1.log = p.log ++ es ∧ announced es = [] := by
  have hf := testLoop_fields E p.conds 0 p
  unfold Pool.testStop
  split
  · exact ⟨[], by simp [announced]⟩
  · split
    · rename_i k heq
      rw [heq] at hf
      have h9 := hf.2.2.2.2.2.2.2.2
      dsimp only at h9
      exact ⟨[.stop k], by simp [Pool.signal, h9], rfl⟩
    · rename_i heq
      rw [heq] at hf
      have h9 := hf.2.2.2.2.2.2.2.2
      dsimp only at h9
      exact ⟨[], by simp [h9], rfl⟩

theorem AnnInv.test {p : Pool} (I : AnnInv p) : AnnInv (p.testStop E).1 := by
  have hf := poolTest_fields E p
  obtain ⟨es, h1, h2⟩ := poolTest_log (E := E) p
  refine I.congr ?_ (core_ext hf.2.1).1 hf.2.2.2.2.2.2 hf.2.2.2.2.2.1
  rw [h1]
  unfold announced at h2 ⊢
  rw [List.filterMap_append, h2, List.append_nil]

/-- **C40.** `on_new_best` of a pool announces strictly improving fitnesses, of which the last is the current best fitness. -/
theorem C40_announced (cfg : PoolCfg) (info : ObjInfo) {P : Opt → Prop} {ls : List (List Nat × List Nat)} {p : Pool}
    (h : Pool.Hist E P (Pool.init cfg info) ls p) :
    (announced p.log).Pairwise (fun a b => info.isBetter b a = true) ∧
    (announced p.log).getLast? = if p.bestIdx.isSome then some p.best else none := by
  have hi := (hist_improves h).2
  rw [init_own] at hi
  have : AnnInv p := by
    clear hi
    generalize hp0 : Pool.init cfg info = p0 at h
    induction h with
    | nil => subst hp0; exact ⟨by simp [Pool.init, announced], by simp [Pool.init, announced]⟩
    | @step q q' ls sel run ins r h st ih =>
      cases st with
      | @mk p₁ p₂ _ t _ _ hd hne h1 h2 h3 hend h4 =>
        have I := ih
        have I1 : AnnInv p₁ := by
          rw [h1]; split <;> refine I.congr ?_ rfl rfl rfl <;> simp [announced, Pool.signal]
        obtain ⟨f1, f2, f3, f4, f5, f6, f7, f8, f9⟩ := refill_fields h2
        have I2 : AnnInv p₂.launch.pool := I1.congr (by rw [← f9]; rfl) (by rw [← f2]; rfl) f6 f5
        have I3 := I2.exec h3 hend.2.2
        have I4 : AnnInv { t.pool.signal .postStep with own := { t.pool.own with stepCount := t.pool.own.stepCount + 1 } } :=
          I3.congr (by simp [announced, Pool.signal]) rfl rfl rfl
        have := I4.test (E := E)
        rw [h4] at this
        exact this
    | push h hm ih => exact ih.congr rfl rfl rfl rfl
    | @addCond q ls c h ih =>
      have : (q.addCond c).own.info = q.own.info := by unfold Pool.addCond; dsimp only; split <;> rfl
      exact ih.congr rfl this rfl rfl
    | interrupt h ih => exact ih.congr rfl rfl rfl rfl
    | test h ih => exact ih.test
  exact ⟨hi ▸ this.sorted, this.last⟩

/-- **C40, limitation.** Until a member has been stepped, the getters fail an assertion. -/
theorem C40_no_best_yet (cfg : PoolCfg) (info : ObjInfo) {P : Opt → Prop} {ls : List (List Nat × List Nat)} {p : Pool}
    (h : Pool.Hist E P (Pool.init cfg info) ls p) (hs : ∀ l ∈ ls, l.2 = []) : p.bestFitness = .ub ∧ p.bestPoint = .ub := by
  have : p.bestIdx = none := by
    generalize hp0 : Pool.init cfg info = p0 at h
    induction h with
    | nil => subst hp0; rfl
    | @step q q' ls sel run ins r h st ih =>
      have ih := ih (fun l hl => hs l (by simp [hl]))
      have hr : run = [] := hs (sel, run) (by simp)
      cases st with
      | @mk p₁ p₂ _ t _ _ hd hne h1 h2 h3 hend h4 =>
        have hf := poolTest_fields E { t.pool.signal .postStep with own := { t.pool.own with stepCount := t.pool.own.stepCount + 1 } }
        rw [h4] at hf
        obtain ⟨f1, f2, f3, f4, f5, f6, f7, f8, f9⟩ := refill_fields h2
        have h1' : p₁.bestIdx = q.bestIdx := by rw [h1]; split <;> rfl
        have key : ∀ r, RunExec E ins r t → r.futs = [] → t.pool.bestIdx = r.pool.bestIdx ∧ t.futs = [] := by
          intro r hx hr
          clear hend h4 hf h3
          induction hx with
          | nil => exact ⟨rfl, hr⟩
          | snoc _ st ih =>
            obtain ⟨i1, i2⟩ := ih
            cases st with
            | finish => exact ⟨i1, i2⟩
            | fail => exact ⟨i1, i2⟩
            | collect h => rw [i2] at h; cases h
            | throws h => rw [i2] at h; cases h
            | rethrow h => rw [i2] at h; cases h
            | interrupt => exact ⟨i1, i2⟩
        have := (key _ h3 hr).1
        exact hf.2.2.2.2.2.2.trans (this.trans (f6.trans (h1'.trans ih)))
    | push h hm ih => exact ih hs
    | addCond h ih => exact ih hs
    | interrupt h ih => exact ih hs
    | @test q ls h ih => exact (poolTest_fields E q).2.2.2.2.2.2.trans (ih hs)
  unfold Pool.bestFitness Pool.bestPoint Pool.bestMember
  rw [this]
  exact ⟨rfl, rfl⟩

/-! ## C41 -/

/-- **C41.** In every history of a pool: what is selected is stepped, in that order and once each (the rest is still queued); the members
stepped in one step are different and at most `concurrent_optimizations`. -/
theorem C41_selected_and_stepped (cfg : PoolCfg) (info : ObjInfo) {P : Opt → Prop} {ls : List (List Nat × List Nat)} {p : Pool}
    (h : Pool.Hist E P (Pool.init cfg info) ls p) :
    ls.flatMap (·.1) = ls.flatMap (·.2) ++ p.queue ∧
    ∀ l ∈ ls, l.1.Nodup ∧ l.2.Nodup ∧ l.2.length ≤ cfg.concurrent := by
  have I := QueueInv.hist E h ⟨rfl, by simp [Pool.init], rfl, by simp⟩
  exact ⟨I.fifo, I.each⟩

/-- **C41.** Members are selected only when all previously selected ones have been stepped, and no stop condition of a selected member
holds at that time. -/
theorem C41_not_stopped {p p' : Pool} {sel : List Nat} (h : Refill E p sel p') :
    (p.queue ≠ [] → sel = []) ∧ ∀ i ∈ sel, ∃ m, p'.members[i]? = some m ∧ (m.testStop E).2 = .ok none :=
  ⟨(refill_sel E h).2.2, (refill_sel E h).2.1⟩

/-- **C41.** While predictions are not used, a step of a pool with a member that has not stopped steps at least one member. -/
theorem C41_progress {ins : Nat → In} {p p' : Pool} {sel run : List Nat} {r : Option Nat} (h : Pool.Step E ins p sel run p' r)
    (hs : ∀ m ∈ p.members, m.vis.stepCount < p.cfg.start) (ha : 0 < p.cfg.active) (hc : 0 < p.cfg.concurrent)
    (hm : ∃ m ∈ p.members, (m.testStop E).2 = .ok none) : run ≠ [] := by
  cases h with
  | @mk p₁ p₂ _ t _ _ hd hne h1 h2 h3 hend h4 =>
    have h1' : p₁.own = p.own ∧ p₁.members = p.members ∧ p₁.cfg = p.cfg := by rw [h1]; split <;> exact ⟨rfl, rfl, rfl⟩
    have hq : p₂.queue ≠ [] := by
      cases h2 with
      | keep h => exact h
      | @fill ms ms' preds ord q h hp ho hf hb =>
        rw [← h1'.2.2] at ha hs
        rw [← h1'.2.1] at hm hs
        obtain ⟨g1, g2⟩ := predictLoop_best E _ _ _ _ _ _ hp hs
        have g2 := g2 ha hm
        have hbw : p₁.own.info.isBetter p₁.own.info.bestFitness p₁.own.info.worstFitness = true := by
          unfold ObjInfo.isBetter ObjInfo.bestFitness ObjInfo.worstFitness
          cases p₁.own.info.minimize <;> decide +kernel
        refine fill_progress E hp ho hf ?_ ⟨_, g2, hbw⟩
        intro hn
        rcases g1 _ hn with h | h
        · exact worst_ne_nan _ h.symm
        · exact (better_ne_nan hbw).1 h.symm
    have hc2 : p₂.cfg.concurrent = p.cfg.concurrent := by rw [(refill_fields h2).2.2.1, h1'.2.2]
    show p₂.queue.take p₂.cfg.concurrent ≠ []
    rw [hc2]
    intro hcon
    rw [List.take_eq_nil_iff] at hcon
    rcases hcon with h | h
    · omega
    · exact hq h

/-! ## C42 -/

theorem testAll_spec (ms : List Opt) : ∀ b, (testAll E ms).2 = .ok b →
    (b = true ↔ ∀ m ∈ ms, ∃ k, (m.testStop E).2 = .ok (some k)) ∧ (testAll E ms).1 = ms.map (fun m => (m.testStop E).1) := by
  induction ms with
  | nil => intro b h; cases h; simp [testAll]
  | cons m ms ih =>
    intro b h
    simp only [testAll] at h ⊢
    rcases h1 : m.testStop E with ⟨m', r⟩
    rw [h1] at h
    cases r with
    | ok k =>
      dsimp only at h ⊢
      rcases h2 : testAll E ms with ⟨ms', r'⟩
      rw [h2] at h ih
      cases r' with
      | ok b' =>
        cases h
        obtain ⟨i1, i2⟩ := ih b' rfl
        refine ⟨?_, by simp [h1, ← i2]⟩
        simp only [Bool.and_eq_true, List.mem_cons, forall_eq_or_imp, h1, i1]
        refine and_congr ?_ Iff.rfl
        cases k <;> simp
      | err => cases h
      | ub => cases h
    | err => cases h
    | ub => cases h

/-- **C42.** The pool's own stop condition fires if and only if every member has a stop condition, and testing it tests every member (so
that each of them tells its reporters). -/
theorem C42_condition (p : Pool) (b : Bool) (h : (p.testCond E .allStopped).2 = .ok b) :
    (b = true ↔ ∀ m ∈ p.members, ∃ k, (m.testStop E).2 = .ok (some k)) ∧
    (p.testCond E .allStopped).1.members = p.members.map (fun m => (m.testStop E).1) :=
  testAll_spec p.members b h

theorem conds_hist (cfg : PoolCfg) (info : ObjInfo) {P : Opt → Prop} {ls : List (List Nat × List Nat)} {p : Pool}
    (h : Pool.Hist E P (Pool.init cfg info) ls p) : ∃ cs, p.conds = .own .abort :: .own (.error false) :: .allStopped :: cs := by
  generalize hp0 : Pool.init cfg info = p0 at h
  induction h with
  | nil => subst hp0; exact ⟨[], by simp [Pool.init, Opt.init, Opt.addCond]⟩
  | @step q q' ls sel run ins r h st ih =>
    obtain ⟨cs, hcs⟩ := ih
    refine ⟨cs, ?_⟩
    rw [← hcs]
    cases st with
    | @mk p₁ p₂ _ t _ _ hd hne h1 h2 h3 hend h4 =>
      have hf := poolTest_fields E { t.pool.signal .postStep with own := { t.pool.own with stepCount := t.pool.own.stepCount + 1 } }
      rw [h4] at hf
      have h1' : p₁.conds = q.conds := by rw [h1]; split <;> rfl
      exact hf.2.2.2.2.1.trans ((exec_queue E h3).2.2.1.trans ((refill_fields h2).2.2.2.1.trans h1'))
  | push h hm ih => exact ih
  | @addCond q ls c h ih => obtain ⟨cs, hcs⟩ := ih; exact ⟨cs ++ [.own c], by simp [Pool.addCond, hcs]⟩
  | interrupt h ih => exact ih
  | @test q ls h ih => obtain ⟨cs, hcs⟩ := ih; exact ⟨cs, (poolTest_fields E q).2.2.2.2.1.trans hcs⟩

/-- **C42.** A pool that has not been interrupted stops with its own condition (the third) exactly if every member has a stop condition;
otherwise only a condition added by the user (the fourth or later) can stop it. -/
theorem C42_stops_iff (cfg : PoolCfg) (info : ObjInfo) {P : Opt → Prop} {ls : List (List Nat × List Nat)} {p : Pool}
    (h : Pool.Hist E P (Pool.init cfg info) ls p) (hs : p.stopped = none) (hr : p.own.stopRequested = false) {r : Option Nat}
    (ht : (p.testStop E).2 = .ok r) :
    (r = some 2 ↔ ∀ m ∈ p.members, ∃ k, (m.testStop E).2 = .ok (some k)) ∧ (∀ k, r = some k → 2 ≤ k) := by
  obtain ⟨cs, hcs⟩ := conds_hist cfg info h
  have idx : ∀ (cs : List PCond) (k : Nat) (q : Pool) (j : Nat), (Pool.testLoop E k cs q).2 = .ok (some j) → k ≤ j := by
    intro cs
    induction cs with
    | nil => intro k q j h; cases h
    | cons c cs ih =>
      intro k q j h
      simp only [Pool.testLoop] at h
      split at h
      · cases h; exact le_rfl
      · have := ih _ _ _ h; omega
      · cases h
      · cases h
  have t1 : ∀ q : Pool, q.own.stopRequested = false → ∃ q', q.testCond E (.own .abort) = (q', .ok false) ∧ q'.members = q.members := by
    intro q hq
    simp only [Pool.testCond, Cond.usesBest]
    cases hv : q.view with
    | ok v =>
      have : v.stopRequested = false := by
        unfold Pool.view at hv
        cases hb : q.bestMember with
        | ok m => rw [hb] at hv; cases hv; exact hq
        | err => rw [hb] at hv; cases hv
        | ub => rw [hb] at hv; cases hv
      exact ⟨_, Prod.ext rfl (congrArg Res.ok this), rfl⟩
    | err => exact ⟨_, Prod.ext rfl (congrArg Res.ok hq), rfl⟩
    | ub => exact ⟨_, Prod.ext rfl (congrArg Res.ok hq), rfl⟩
  have t2 : ∀ q : Pool, ∃ q', q.testCond E (.own (.error false)) = (q', .ok false) ∧ q'.members = q.members := by
    intro q
    simp only [Pool.testCond, Cond.usesBest]
    cases hv : q.view <;> exact ⟨_, rfl, rfl⟩
  obtain ⟨q1, e1, m1⟩ := t1 p hr
  obtain ⟨q2, e2, m2⟩ := t2 q1
  have hl : (Pool.testLoop E 0 p.conds p).2 = .ok r := by
    unfold Pool.testStop at ht
    rw [hs] at ht
    dsimp only at ht
    rcases hx : Pool.testLoop E 0 p.conds p with ⟨p', r'⟩
    rw [hx] at ht
    cases r' with
    | ok k => cases k <;> exact ht
    | err => exact ht
    | ub => exact ht
  rw [hcs] at hl
  simp only [Pool.testLoop, e1, e2] at hl
  rcases h3 : q2.testCond E .allStopped with ⟨q3, r3⟩
  rw [h3] at hl
  cases r3 with
  | ok b =>
    have hall := (C42_condition (E := E) q2 b (by rw [h3])).1
    rw [m2, m1] at hall
    cases b with
    | true =>
      cases hl
      exact ⟨iff_of_true rfl (hall.1 rfl), fun k hk => by cases hk; decide⟩
    | false =>
      dsimp only at hl
      refine ⟨iff_of_false ?_ (fun hc => by simpa using hall.2 hc), ?_⟩
      · rintro rfl
        have := idx _ _ _ _ hl
        omega
      · rintro k rfl
        have := idx _ _ _ _ hl
        omega
  | err => cases hl
  | ub => cases hl

/-- **C42.** Interrupting a pool interrupts all members and the pool: from then on the tests of the stop conditions of the pool and of
every member (whose first condition is the one for interrupts, as for every optimizer) find one. -/
theorem C42_interrupt (cfg : PoolCfg) (info : ObjInfo) {P : Opt → Prop} {ls : List (List Nat × List Nat)} {p : Pool}
    (h : Pool.Hist E P (Pool.init cfg info) ls p) :
    (∃ k, (p.interrupt.testStop E).2 = .ok (some k)) ∧
    (p.stopped = none → (p.interrupt.testStop E).2 = .ok (some 0)) ∧
    p.interrupt.members.length = p.members.length ∧
    ∀ m ∈ p.interrupt.members, m.vis.stopRequested = true ∧ (m.conds.head?.map (fun c => match c with | .abort => true | _ => false) = some true →
      ∃ k, (m.testStop E).2 = .ok (some k)) := by
  obtain ⟨cs, hcs⟩ := conds_hist cfg info h
  have h0 : p.stopped = none → (p.interrupt.testStop E).2 = .ok (some 0) := by
    intro hs
    have t1 : ∃ q', p.interrupt.testCond E (.own .abort) = (q', .ok true) := by
      simp only [Pool.testCond, Cond.usesBest]
      cases hv : p.interrupt.view with
      | ok v =>
        have : v.stopRequested = true := by
          unfold Pool.view at hv
          cases hb : p.interrupt.bestMember with
          | ok m => rw [hb] at hv; cases hv; rfl
          | err => rw [hb] at hv; cases hv
          | ub => rw [hb] at hv; cases hv
        exact ⟨_, by simp only [Cond.test, this]; rfl⟩
      | err => exact ⟨_, rfl⟩
      | ub => exact ⟨_, rfl⟩
    obtain ⟨q, hq⟩ := t1
    unfold Pool.testStop
    have e1 : p.interrupt.stopped = none := hs
    have e2 : p.interrupt.conds = .own .abort :: .own (.error false) :: .allStopped :: cs := hcs
    rw [e1, e2]
    dsimp only
    simp only [Pool.testLoop, hq]
  refine ⟨?_, h0, by simp [Pool.interrupt], ?_⟩
  · cases hs : p.stopped with
    | none => exact ⟨0, h0 hs⟩
    | some k =>
      refine ⟨k, ?_⟩
      unfold Pool.testStop
      rw [show p.interrupt.stopped = some k from hs]
  · intro m hm
    simp only [Pool.interrupt, List.mem_map] at hm
    obtain ⟨m0, -, rfl⟩ := hm
    refine ⟨rfl, ?_⟩
    intro hc
    cases hcc : m0.interrupt.conds with
    | nil => rw [hcc] at hc; simp at hc
    | cons c cs' =>
      rw [hcc] at hc
      cases c <;> simp at hc
      cases hs : m0.interrupt.stopped with
      | some k => exact ⟨k, by unfold Opt.testStop; rw [hs]⟩
      | none =>
        refine ⟨0, ?_⟩
        unfold Opt.testStop
        rw [hs, hcc]
        rfl

end Spot
