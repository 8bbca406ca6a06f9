import Verif.Props.PoolSelect
import Verif.Props.PoolRun

/-! # C100: a pool stops the members that are predicted to fail -/

namespace Spot
variable {E : OptEnv}

/-- A `predicted_fitness_condition`. -/
def Cond.isPredicted : Cond → Bool
  | .predicted _ _ _ => true
  | _ => false

/-- The predicted fitness conditions of an optimizer. -/
def Opt.predictions (m : Opt) : List Cond := m.conds.filter Cond.isPredicted

theorem testStop_predictions (m : Opt) : (m.testStop E).1.predictions = m.predictions := by
  unfold Opt.predictions
  rw [testStop_conds]

theorem testAll_predictions (ms : List Opt) : (testAll E ms).1.map Opt.predictions = ms.map Opt.predictions := by
  induction ms with
  | nil => rfl
  | cons m ms ih =>
    have := testStop_predictions (E := E) m
    simp only [testAll]
    split
    · rename_i m' r heq
      rw [heq] at this
      revert ih
      split <;> intro ih <;> simp_all
    · rename_i m' heq; rw [heq] at this; simp_all
    · rename_i m' heq; rw [heq] at this; simp_all

theorem predictLoop_predictions (cfg : PoolCfg) (info : ObjInfo) (ms : List Opt) :
    ∀ n, (predictLoop E cfg info n ms).1.map Opt.predictions = ms.map Opt.predictions := by
  induction ms with
  | nil => intro n; rfl
  | cons m ms ih =>
    intro n
    have := testStop_predictions (E := E) m
    simp only [predictLoop]
    split
    · split
      · rename_i m' heq
        rw [heq] at this
        by_cases hs : m'.vis.stepCount ≥ cfg.start
        · have hp : ({ m' with vis := (m'.vis.predictedFitness E cfg.lookAhead).1 } : Opt).predictions = m'.predictions := rfl
          simp only [if_pos hs]
          split <;> simp_all
        · simp only [if_neg hs]
          simp_all
      · rename_i m' k heq; rw [heq] at this; simp_all
      · rename_i m' heq; rw [heq] at this; simp_all
      · rename_i m' heq; rw [heq] at this; simp_all
    · simp_all

theorem map_set_predictions {ms : List Opt} {i : Nat} {m m' : Opt} (h : ms[i]? = some m) (hs : m'.predictions = m.predictions) :
    (ms.set i m').map Opt.predictions = ms.map Opt.predictions := by
  apply List.ext_getElem?
  intro j
  by_cases hj : i = j
  · subst hj
    have hl : i < ms.length := (List.getElem?_eq_some_iff.1 h).1
    have : ms[i] = m := (List.getElem?_eq_some_iff.1 h).2
    simp [hl, hs, this]
  · simp [List.getElem?_map, List.getElem?_set_ne hj]

theorem fillLoop_predictions (c : Nat) (preds : List Dbl) (is : List Nat) :
    ∀ (q : List Nat) (ms : List Opt), (fillLoop E c preds is q ms).1.map Opt.predictions = ms.map Opt.predictions := by
  induction is with
  | nil => intro q ms; rfl
  | cons i is ih =>
    intro q ms
    unfold fillLoop
    split
    · rfl
    · rename_i m hm
      have := testStop_predictions (E := E) m
      split
      · rename_i heq; rw [heq] at this; exact map_set_predictions hm this
      · rename_i heq; rw [heq] at this
        dsimp only
        split
        · exact map_set_predictions hm this
        · rw [ih]; exact map_set_predictions hm this
      · rename_i heq; rw [heq] at this; exact map_set_predictions hm this
      · rename_i heq; rw [heq] at this; exact map_set_predictions hm this

theorem setError_predictions (cs : List Cond) : (setError cs).filter Cond.isPredicted = cs.filter Cond.isPredicted := by
  induction cs with
  | nil => rfl
  | cons c cs ih => cases c <;> simp [setError, List.filter_cons, Cond.isPredicted, ih]

theorem step_predictions (i : In) (m : Opt) : (m.step E (Opt.internal E i)).1.predictions = m.predictions := by
  have hint : (Opt.internal E i m.begun).1.conds = m.begun.conds ∨ (Opt.internal E i m.begun).1.conds = setError m.begun.conds := by
    obtain ⟨-, -, e3, -⟩ := evaluateStep_later E m.begun i.pop i.res
    unfold Opt.internal
    dsimp only
    split
    · exact e3
    · exact e3
  have hs : (Opt.internal E i m.begun).1.predictions = m.predictions := by
    rw [begun_conds] at hint
    unfold Opt.predictions
    rcases hint with h1 | h1 <;> rw [h1]
    exact setError_predictions _
  unfold Opt.step
  split
  · rfl
  · change (match Opt.internal E i m.begun with
      | (s, .ok true) =>
        ({ s.signal .postStep with vis := { (s.signal .postStep).vis with stepCount := (s.signal .postStep).vis.stepCount + 1 } } : Opt).testStop E
      | (s, .ok false) => s.testStop E
      | (s, .err) => (s, .err)
      | (s, .ub) => (s, .ub)).1.predictions = _
    rcases hi : Opt.internal E i m.begun with ⟨s, r⟩
    rw [hi] at hs
    cases r with
    | ok b => cases b with
      | true => dsimp only; rw [testStop_predictions]; exact hs
      | false => dsimp only; rw [testStop_predictions]; exact hs
    | err => exact hs
    | ub => exact hs

theorem setTarget_one {f T : Dbl} {a n : Nat} : ∀ {cs : List Cond}, cs.filter Cond.isPredicted = [.predicted T a n] →
    ∃ cs', setTarget f cs = some cs' ∧ cs'.filter Cond.isPredicted = [.predicted f a n] := by
  intro cs
  induction cs with
  | nil => intro h; simp at h
  | cons c cs ih =>
    intro h
    cases c
    case predicted T' a' n' =>
      rw [List.filter_cons_of_pos rfl] at h
      obtain ⟨h1, h2⟩ := List.cons.inj h
      cases h1
      exact ⟨_, rfl, by rw [List.filter_cons_of_pos rfl, h2]⟩
    all_goals
      rw [List.filter_cons_of_neg (by simp [Cond.isPredicted])] at h
      obtain ⟨cs', h1, h2⟩ := ih h
      exact ⟨_, by simp only [setTarget, h1, Option.map_some]; rfl, by rw [List.filter_cons_of_neg (by simp [Cond.isPredicted]), h2]⟩

/-- The target that the members should have. -/
def Pool.target (p : Pool) : Dbl := if p.bestIdx.isNone then p.own.info.worstFitness else p.best

/-- Every member has one predicted fitness condition, with the target of the pool (`late`: or the one it got from `push_back`). -/
def TargInv (late : Bool) (p : Pool) : Prop :=
  ∀ (k : Nat) (m : Opt), p.members[k]? = some m → ∃ T : Dbl, m.predictions = [.predicted T p.cfg.lookAhead p.cfg.start] ∧
    (T = p.target ∨ late = true ∧ T = p.own.info.worstFitness)

theorem predictions_get {ms ms' : List Opt} (h : ms'.map Opt.predictions = ms.map Opt.predictions) {i : Nat} {m : Opt} (hm : ms'[i]? = some m) :
    ∃ m', ms[i]? = some m' ∧ m'.predictions = m.predictions := by
  have h1 : (ms.map Opt.predictions)[i]? = some m.predictions := by rw [← h, List.getElem?_map, hm]; rfl
  rw [List.getElem?_map] at h1
  cases h2 : ms[i]? with
  | none => rw [h2] at h1; cases h1
  | some m' => rw [h2] at h1; exact ⟨m', rfl, Option.some.inj h1⟩

theorem TargInv.congr {late : Bool} {p q : Pool} (I : TargInv late p) (hp : q.members.map Opt.predictions = p.members.map Opt.predictions)
    (hi : q.own.info = p.own.info) (hc : q.cfg = p.cfg) (hb : q.best = p.best) (hx : q.bestIdx = p.bestIdx) : TargInv late q := by
  intro k m hm
  obtain ⟨m', h1, h2⟩ := predictions_get hp hm
  obtain ⟨T, h3, h4⟩ := I k m' h1
  have ht : q.target = p.target := by unfold Pool.target; rw [hi, hb, hx]
  exact ⟨T, by rw [← h2, hc]; exact h3, by rw [ht, hi]; exact h4⟩

theorem setTargets_one {f : Dbl} {a n : Nat} : ∀ (ms : List Opt), (∀ m ∈ ms, ∃ T, m.predictions = [.predicted T a n]) →
    (setTargets f ms).2 = true ∧ ∀ m ∈ (setTargets f ms).1, m.predictions = [.predicted f a n] := by
  intro ms
  induction ms with
  | nil => intro _; exact ⟨rfl, fun m hm => (by cases hm)⟩
  | cons m ms ih =>
    intro h
    obtain ⟨T, hT⟩ := h m List.mem_cons_self
    obtain ⟨cs', h1, h2⟩ := setTarget_one (f := f) hT
    obtain ⟨i1, i2⟩ := ih fun x hx => h x (List.mem_cons_of_mem _ hx)
    simp only [setTargets, h1]
    refine ⟨i1, fun x hx => ?_⟩
    rcases List.mem_cons.1 hx with rfl | hx
    · exact h2
    · exact i2 x hx

theorem TargInv.collect {late : Bool} {p p' : Pool} {i : Nat} {x : Res Unit} (hu : p.cfg.usePredicted = true) (I : TargInv late p) (h : p.collect i = (p', x)) :
    TargInv late p' := by
  unfold Pool.collect at h
  split at h
  · cases h; exact I
  · rename_i m hm
    dsimp only at h
    generalize hnb : (p.bestIdx.isNone || p.own.info.isBetter m.vis.bestFitness p.best) = nb at h
    cases nb with
    | false =>
      simp only [Bool.false_and, Bool.false_eq_true, if_false, if_true] at h
      split at h <;> cases h <;> exact I.congr rfl rfl rfl rfl rfl
    | true =>
      simp only [Bool.true_and, if_true, hu] at h
      obtain ⟨s1, s2⟩ := setTargets_one (f := m.vis.bestFitness) (a := p.cfg.lookAhead) (n := p.cfg.start) p.members fun y hy => by
        obtain ⟨k, hk⟩ := List.getElem?_of_mem hy
        obtain ⟨T, hT, -⟩ := I k y hk
        exact ⟨T, hT⟩
      simp only [s1, if_true] at h
      have key : ∀ q : Pool, q.members = (setTargets m.vis.bestFitness p.members).1 → q.cfg = p.cfg → q.bestIdx = some i → q.best = m.vis.bestFitness → TargInv late q := by
        intro q h1 h2 h3 h4 k y hy
        rw [h1] at hy
        refine ⟨m.vis.bestFitness, by rw [h2]; exact s2 y (List.mem_of_getElem? hy), .inl ?_⟩
        unfold Pool.target
        rw [h3, h4]
        rfl
      split at h <;> cases h <;> exact key _ rfl rfl rfl rfl

theorem interrupt_predictions (ms : List Opt) : (ms.map Opt.interrupt).map Opt.predictions = ms.map Opt.predictions := by
  rw [List.map_map]
  rfl

theorem exec_targ {late : Bool} {ins : Nat → In} {r t : RunSt} (h : RunExec E ins r t) (hu : r.pool.cfg.usePredicted = true) (I : TargInv late r.pool) :
    TargInv late t.pool := by
  induction h with
  | nil => exact I
  | @snoc s t h st ih =>
    have hc : s.pool.cfg = r.pool.cfg := (exec_queue E h).2.1
    cases st with
    | @finish i m m' x hr hm hs =>
      have := step_predictions (E := E) (ins i) m
      rw [hs] at this
      exact ih.congr (map_set_predictions hm this) rfl rfl rfl rfl
    | @fail i m m' hr hm hs =>
      have := step_predictions (E := E) (ins i) m
      rw [hs] at this
      exact ih.congr (map_set_predictions hm this) rfl rfl rfl rfl
    | collect h hr hf hcc => exact ih.collect (by rw [hc]; exact hu) hcc
    | throws h hr hf hcc => exact ih.collect (by rw [hc]; exact hu) hcc
    | rethrow h hr hf => exact ih
    | interrupt => exact ih.congr (interrupt_predictions _) rfl rfl rfl rfl

theorem poolLoop_predictions (cs : List PCond) : ∀ (k : Nat) (p : Pool), (Pool.testLoop E k cs p).1.members.map Opt.predictions = p.members.map Opt.predictions := by
  induction cs with
  | nil => intro k p; rfl
  | cons c cs ih =>
    intro k p
    have : (p.testCond E c).1.members.map Opt.predictions = p.members.map Opt.predictions := by
      cases c with
      | allStopped => exact testAll_predictions p.members
      | own c =>
        simp only [Pool.testCond]
        split <;> rfl
    simp only [Pool.testLoop]
    split
    · rename_i heq; rw [heq] at this; exact this
    · rename_i p' heq; rw [heq] at this; exact (ih (k + 1) p').trans this
    · rename_i heq; rw [heq] at this; exact this
    · rename_i heq; rw [heq] at this; exact this

theorem poolTest_predictions (p : Pool) : (p.testStop E).1.members.map Opt.predictions = p.members.map Opt.predictions := by
  have := poolLoop_predictions (E := E) p.conds 0 p
  unfold Pool.testStop
  split
  · rfl
  · split
    · rename_i heq; rw [heq] at this; exact this
    · rename_i heq; rw [heq] at this; exact this

theorem TargInv.step {late : Bool} {ins : Nat → In} {p p' : Pool} {sel run : List Nat} {r : Option Nat} (hu : p.cfg.usePredicted = true) (I : TargInv late p)
    (st : Pool.Step E ins p sel run p' r) : TargInv late p' ∧ p'.cfg = p.cfg := by
  cases st with
  | @mk p₁ p₂ _ t _ _ hd hne h1 h2 h3 hend h4 =>
    have I1 : TargInv late p₁ ∧ p₁.cfg = p.cfg := by rw [h1]; split <;> exact ⟨I.congr rfl rfl rfl rfl rfl, rfl⟩
    obtain ⟨-, f2, f3, -, f5, f6, -⟩ := refill_fields h2
    have hp : p₂.members.map Opt.predictions = p₁.members.map Opt.predictions := by
      cases h2 with
      | keep h => rfl
      | @fill ms ms' preds ord q h hp ho hf hb =>
        have g1 := predictLoop_predictions (E := E) p₁.cfg p₁.own.info p₁.members 0
        have g2 := fillLoop_predictions (E := E) p₁.cfg.concurrent preds ord [] ms
        rw [hp] at g1; rw [hf] at g2
        exact g2.trans g1
    have I2 : TargInv late p₂.launch.pool := (I1.1.congr hp (by rw [f2]) f3 f5 f6).congr rfl rfl rfl rfl rfl
    have I3 := exec_targ h3 (by show p₂.cfg.usePredicted = true; rw [f3, I1.2]; exact hu) I2
    have hf := poolTest_fields E { t.pool.signal .postStep with own := { t.pool.own with stepCount := t.pool.own.stepCount + 1 } }
    have hg := poolTest_predictions (E := E) { t.pool.signal .postStep with own := { t.pool.own with stepCount := t.pool.own.stepCount + 1 } }
    rw [h4] at hf hg
    have hci := (core_ext hf.2.1).1
    refine ⟨I3.congr hg hci hf.2.2.2.1 hf.2.2.2.2.2.1 hf.2.2.2.2.2.2, ?_⟩
    rw [hf.2.2.2.1]
    show t.pool.cfg = p.cfg
    rw [(exec_queue E h3).2.1]
    show p₂.cfg = p.cfg
    rw [f3, I1.2]

theorem push_targ {late : Bool} {p : Pool} {m : Opt} (hu : p.cfg.usePredicted = true) (I : TargInv late p) (hm : m.predictions = []) (hl : late = true ∨ p.bestIdx = none) :
    TargInv late (p.push m) := by
  have hp : (p.push m).members.map Opt.predictions = p.members.map Opt.predictions ++ [[.predicted p.own.info.worstFitness p.cfg.lookAhead p.cfg.start]] := by
    unfold Pool.push
    dsimp only
    rw [if_pos hu, List.map_append, List.map_singleton]
    congr 2
    unfold Opt.predictions Opt.addCond at *
    dsimp only
    rw [List.filter_append, hm]
    rfl
  intro k y hy
  have h1 : ((p.push m).members.map Opt.predictions)[k]? = some y.predictions := by rw [List.getElem?_map, hy]; rfl
  rw [hp] at h1
  rcases lt_or_ge k p.members.length with hk | hk
  · rw [List.getElem?_append_left (by simpa using hk), List.getElem?_map, List.getElem?_eq_getElem hk] at h1
    obtain ⟨T, h2, h3⟩ := I k _ (List.getElem?_eq_getElem hk)
    exact ⟨T, by rw [← Option.some.inj h1]; exact h2, h3⟩
  · rw [List.getElem?_append_right (by simpa using hk)] at h1
    have hk0 : k - (p.members.map Opt.predictions).length = 0 := by
      by_contra hne
      rw [List.getElem?_eq_none (by simp at hne ⊢; omega)] at h1
      cases h1
    rw [hk0] at h1
    refine ⟨p.own.info.worstFitness, (Option.some.inj h1).symm, ?_⟩
    rcases hl with hl | hl
    · exact .inr ⟨hl, rfl⟩
    · left
      show _ = Pool.target p
      unfold Pool.target
      rw [hl]
      rfl

/-- An optimizer as it is given to the pool: without predicted fitness condition of its own. -/
def Opt.Plain (minimize : Bool) (m : Opt) : Prop := m.Fits minimize ∧ ∀ f a n, Cond.predicted f a n ∉ m.conds

theorem plain_predictions {b : Bool} {m : Opt} (h : m.Plain b) : m.predictions = [] := by
  unfold Opt.predictions
  rw [List.filter_eq_nil_iff]
  intro c hc
  cases c <;> simp [Cond.isPredicted]
  exact h.2 _ _ _ hc

theorem hist_targ {late : Bool} {P : Opt → Prop} {p0 p : Pool} {ls : List (List Nat × List Nat)} (h : Pool.Hist E P p0 ls p) (hu : p0.cfg.usePredicted = true)
    (hP : ∀ m, P m → m.predictions = []) (I : TargInv late p0) (hl : late = true ∨ (∀ m, ¬ P m) ∨ (ls = [] ∧ p0.bestIdx = none)) :
    TargInv late p ∧ p.cfg = p0.cfg ∧ (ls = [] → p.bestIdx = p0.bestIdx) := by
  induction h with
  | nil => exact ⟨I, rfl, fun _ => rfl⟩
  | @step q q' ls sel run ins r h st ih =>
    have hl' : late = true ∨ (∀ m, ¬ P m) := by
      rcases hl with h | h | h
      · exact .inl h
      · exact .inr h
      · exact absurd h.1 (by simp)
    obtain ⟨J, hc, -⟩ := ih (hl'.elim .inl fun h => .inr (.inl h))
    obtain ⟨J', hc'⟩ := J.step (by rw [hc]; exact hu) st
    exact ⟨J', hc'.trans hc, fun h => absurd h (by simp)⟩
  | @push q ls m h hm ih =>
    obtain ⟨J, hc, hb⟩ := ih hl
    refine ⟨push_targ (by rw [hc]; exact hu) J (hP m hm) ?_, hc, hb⟩
    rcases hl with h | h | h
    · exact .inl h
    · exact absurd hm (h m)
    · exact .inr ((hb h.1).trans h.2)
  | @addCond q ls c h ih =>
    obtain ⟨J, hc, hb⟩ := ih hl
    exact ⟨J.congr rfl (by unfold Pool.addCond; dsimp only; split <;> rfl) rfl rfl rfl, hc, hb⟩
  | @interrupt q ls h ih =>
    obtain ⟨J, hc, hb⟩ := ih hl
    exact ⟨J.congr (interrupt_predictions _) rfl rfl rfl rfl, hc, hb⟩
  | @test q ls h ih =>
    obtain ⟨J, hc, hb⟩ := ih hl
    have hf := poolTest_fields E q
    have hci := (core_ext hf.2.1).1
    exact ⟨J.congr (poolTest_predictions q) hci hf.2.2.2.1 hf.2.2.2.2.2.1 hf.2.2.2.2.2.2, hf.2.2.2.1.trans hc, fun h => hf.2.2.2.2.2.2.trans (hb h)⟩

theorem hist_mono {P Q : Opt → Prop} (hPQ : ∀ m, P m → Q m) {p q : Pool} {ls : List (List Nat × List Nat)} (h : Pool.Hist E P p ls q) : Pool.Hist E Q p ls q := by
  induction h with
  | nil => exact .nil
  | step _ st ih => exact ih.step st
  | push _ hm ih => exact ih.push (hPQ _ hm)
  | addCond _ ih => exact ih.addCond
  | interrupt _ ih => exact ih.interrupt
  | test _ ih => exact ih.test

theorem init_targ (late : Bool) (cfg : PoolCfg) (info : ObjInfo) : TargInv late (Pool.init cfg info) := by
  intro k m hm
  simp [Pool.init] at hm

/-- The best fitness of a pool in terms of its data members. -/
theorem best_target {info : ObjInfo} {cfg : PoolCfg} {ls : List (List Nat × List Nat)} {p : Pool}
    (h : Pool.Hist E (Opt.Fits info.minimize) (Pool.init cfg info) ls p) : p.own.info = info ∧ (∀ m ∈ p.members, m.vis.info.minimize = info.minimize) ∧
    if steppedOf ls = [] then p.target = info.worstFitness else p.bestFitness = .ok p.target := by
  have h' : Pool.Hist E (Opt.Fits (Pool.init cfg info).own.info.minimize) (Pool.init cfg info) ls p := by rw [init_own]; exact h
  obtain ⟨I, hi⟩ := hist_best h' (init_best cfg info)
  rw [init_own] at hi
  rw [List.nil_append] at I
  refine ⟨hi, fun m hm => by rw [(I.mem m hm).2, hi], ?_⟩
  cases hb : p.bestIdx with
  | none =>
    have hn : steppedOf ls = [] := by
      by_contra hs
      obtain ⟨i, hi⟩ := List.exists_mem_of_ne_nil _ hs
      have := I.noneYet hb i hi
      simp at this
    rw [if_pos hn]
    unfold Pool.target
    rw [hb, hi]
    rfl
  | some k =>
    obtain ⟨h1, h2, m, hm, h3⟩ := I.isBest k hb
    have h3 : m.vis.bestFitness = p.best := by simpa using h3
    have hbm : p.bestMember = .ok m := by unfold Pool.bestMember; rw [hb]; dsimp only; rw [hm]
    rw [if_neg (List.ne_nil_of_mem h1)]
    unfold Pool.bestFitness Pool.target
    rw [hbm, hb]
    show Res.ok m.vis.bestFitness = _
    rw [h3]
    rfl

/-- **C100.** A pool with `use_predicted_fitness_stop_condition` to which optimizers without such a condition of their own are added before its first step (`h0`), and that is then
used in any way (`h`; nothing is added): every member has exactly one predicted fitness condition, with the look ahead and start of the pool, and its target is the best fitness of the pool (the worst possible
fitness as long as no member has been stepped). -/
theorem C100_targets (cfg : PoolCfg) (hu : cfg.usePredicted = true) (info : ObjInfo) {ls : List (List Nat × List Nat)} {p0 p : Pool}
    (h0 : Pool.Hist E (Opt.Plain info.minimize) (Pool.init cfg info) [] p0) (h : Pool.Hist E (fun _ => False) p0 ls p) {m : Opt} (hm : m ∈ p.members) :
    ∃ T, m.conds.filter Cond.isPredicted = [.predicted T cfg.lookAhead cfg.start] ∧
      if steppedOf ls = [] then T = info.worstFitness else p.bestFitness = .ok T := by
  obtain ⟨I0, hc0, hb0⟩ := hist_targ (late := false) h0 hu (fun _ => plain_predictions) (init_targ false cfg info) (.inr (.inr ⟨rfl, rfl⟩))
  obtain ⟨I, hc, -⟩ := hist_targ h (by rw [hc0]; exact hu) (fun _ h => h.elim) I0 (.inr (.inl fun _ h => h))
  have hh : Pool.Hist E (Opt.Fits info.minimize) (Pool.init cfg info) ls p := by
    have := Hist_trans (hist_mono (fun _ h => h.1) h0) (hist_mono (Q := Opt.Fits info.minimize) (fun _ h => h.elim) h)
    simpa using this
  obtain ⟨hi, -, ht⟩ := best_target hh
  obtain ⟨k, hk⟩ := List.getElem?_of_mem hm
  obtain ⟨T, h1, h2⟩ := I k m hk
  rw [hc, hc0] at h1
  refine ⟨T, h1, ?_⟩
  rcases h2 with rfl | ⟨h, -⟩
  · exact ht
  · cases h

/-- **C100.** If optimizers are added later too, the target of a member is the best fitness of the pool or still the worst possible fitness, that it got when it was added. -/
theorem C100_added_later (cfg : PoolCfg) (hu : cfg.usePredicted = true) (info : ObjInfo) {ls : List (List Nat × List Nat)} {p : Pool}
    (h : Pool.Hist E (Opt.Plain info.minimize) (Pool.init cfg info) ls p) {m : Opt} (hm : m ∈ p.members) :
    ∃ T, m.conds.filter Cond.isPredicted = [.predicted T cfg.lookAhead cfg.start] ∧ (T = info.worstFitness ∨ p.bestFitness = .ok T) := by
  obtain ⟨I, hc, -⟩ := hist_targ (late := true) h hu (fun _ => plain_predictions) (init_targ true cfg info) (.inl rfl)
  obtain ⟨hi, -, ht⟩ := best_target (hist_mono (fun _ h => h.1) h)
  obtain ⟨k, hk⟩ := List.getElem?_of_mem hm
  obtain ⟨T, h1, h2⟩ := I k m hk
  rw [hc] at h1
  refine ⟨T, h1, ?_⟩
  rcases h2 with rfl | ⟨-, h⟩
  · split at ht
    · exact .inl ht
    · exact .inr ht
  · exact .inl (by rw [h, hi])

theorem collect_fresh {p p' : Pool} {i : Nat} {x : Res Unit} (hu : p.cfg.usePredicted = true) (I : TargInv true p) (h : p.collect i = (p', x)) :
    TargInv false p' ∨ (p'.best = p.best ∧ p'.bestIdx = p.bestIdx) := by
  unfold Pool.collect at h
  split at h
  · cases h; exact .inr ⟨rfl, rfl⟩
  · rename_i m hm
    dsimp only at h
    generalize hnb : (p.bestIdx.isNone || p.own.info.isBetter m.vis.bestFitness p.best) = nb at h
    cases nb with
    | false =>
      simp only [Bool.false_and, Bool.false_eq_true, if_false, if_true] at h
      split at h <;> cases h <;> exact .inr ⟨rfl, rfl⟩
    | true =>
      left
      simp only [Bool.true_and, if_true, hu] at h
      obtain ⟨s1, s2⟩ := setTargets_one (f := m.vis.bestFitness) (a := p.cfg.lookAhead) (n := p.cfg.start) p.members fun y hy => by
        obtain ⟨k, hk⟩ := List.getElem?_of_mem hy
        obtain ⟨T, hT, -⟩ := I k y hk
        exact ⟨T, hT⟩
      simp only [s1, if_true] at h
      have key : ∀ q : Pool, q.members = (setTargets m.vis.bestFitness p.members).1 → q.cfg = p.cfg → q.bestIdx = some i → q.best = m.vis.bestFitness → TargInv false q := by
        intro q h1 h2 h3 h4 k y hy
        rw [h1] at hy
        refine ⟨m.vis.bestFitness, by rw [h2]; exact s2 y (List.mem_of_getElem? hy), .inl ?_⟩
        unfold Pool.target
        rw [h3, h4]
        rfl
      split at h <;> cases h <;> exact key _ rfl rfl rfl rfl

theorem exec_fresh {ins : Nat → In} {r t : RunSt} (h : RunExec E ins r t) (hu : r.pool.cfg.usePredicted = true) (I : TargInv true r.pool) :
    TargInv false t.pool ∨ (t.pool.best = r.pool.best ∧ t.pool.bestIdx = r.pool.bestIdx) := by
  induction h with
  | nil => exact .inr ⟨rfl, rfl⟩
  | @snoc s t h st ih =>
    have hc : s.pool.cfg = r.pool.cfg := (exec_queue E h).2.1
    have hu' : s.pool.cfg.usePredicted = true := by rw [hc]; exact hu
    rcases ih with ih | ⟨h1, h2⟩
    · exact .inl (exec_targ (RunExec.nil.snoc st) hu' ih)
    · have J := exec_targ h hu I
      cases st with
      | finish => exact .inr ⟨h1, h2⟩
      | fail => exact .inr ⟨h1, h2⟩
      | collect _ _ _ hcc => exact (collect_fresh hu' J hcc).imp id fun g => ⟨g.1.trans h1, g.2.trans h2⟩
      | throws _ _ _ hcc => exact (collect_fresh hu' J hcc).imp id fun g => ⟨g.1.trans h1, g.2.trans h2⟩
      | rethrow => exact .inr ⟨h1, h2⟩
      | interrupt => exact .inr ⟨h1, h2⟩

/-- **C100.** With the next improvement all members have the target of the pool, also those that were added later: a step of the pool after which its best fitness is not what it was before
leaves every member with the best fitness of the pool as target. -/
theorem C100_improvement (cfg : PoolCfg) (hu : cfg.usePredicted = true) (info : ObjInfo) {ls : List (List Nat × List Nat)} {p p' : Pool}
    (h : Pool.Hist E (Opt.Plain info.minimize) (Pool.init cfg info) ls p) {ins : Nat → In} {sel run : List Nat} {r : Option Nat} (st : Pool.Step E ins p sel run p' r)
    (hb : p'.bestFitness ≠ p.bestFitness) {m : Opt} (hm : m ∈ p'.members) :
    ∃ T, m.conds.filter Cond.isPredicted = [.predicted T cfg.lookAhead cfg.start] ∧ p'.bestFitness = .ok T := by
  obtain ⟨I, hc, -⟩ := hist_targ (late := true) h hu (fun _ => plain_predictions) (init_targ true cfg info) (.inl rfl)
  have hf := hist_mono (Q := Opt.Fits info.minimize) (fun _ h => h.1) h
  have t0 := (best_target hf).2.2
  have t1 := (best_target (hf.step st)).2.2
  have hinf : p.own.info = info := (best_target hf).1
  have hinf' : p'.own.info = info := (best_target (hf.step st)).1
  have hcfg : p'.cfg = cfg := ((I.step (by rw [hc]; exact hu) st).2).trans hc
  have hs1 : steppedOf (ls ++ [(sel, run)]) ≠ [] := by
    intro hn
    apply hb
    have hn0 : steppedOf ls = [] := by
      rw [steppedOf, List.flatMap_append] at hn
      exact (List.append_eq_nil_iff.mp hn).1
    have none_of : ∀ {q : Pool} {ls'}, Pool.Hist E (Opt.Fits info.minimize) (Pool.init cfg info) ls' q → steppedOf ls' = [] → q.bestFitness = .ub := by
      intro q ls' hq hn
      have h' : Pool.Hist E (Opt.Fits (Pool.init cfg info).own.info.minimize) (Pool.init cfg info) ls' q := by rw [init_own]; exact hq
      obtain ⟨J, -⟩ := hist_best h' (init_best cfg info)
      rw [List.nil_append] at J
      cases hx : q.bestIdx with
      | none => unfold Pool.bestFitness Pool.bestMember; rw [hx]; rfl
      | some k =>
        obtain ⟨h1, -⟩ := J.isBest k hx
        rw [hn] at h1; cases h1
    rw [none_of hf hn0, none_of (hf.step st) hn]
  rw [if_neg hs1] at t1
  have key : TargInv false p' := by
    have st' := st
    cases st with
    | @mk p₁ p₂ _ t _ _ hd hne h1 h2 h3 hend h4 =>
      have I1 : TargInv true p₁ ∧ p₁.cfg = p.cfg ∧ p₁.best = p.best ∧ p₁.bestIdx = p.bestIdx := by
        rw [h1]; split <;> exact ⟨I.congr rfl rfl rfl rfl rfl, rfl, rfl, rfl⟩
      obtain ⟨-, f2, f3, -, f5, f6, -⟩ := refill_fields h2
      have hp : p₂.members.map Opt.predictions = p₁.members.map Opt.predictions := by
        cases h2 with
        | keep h => rfl
        | @fill ms ms' preds ord q h hp ho hf hb =>
          have g1 := predictLoop_predictions (E := E) p₁.cfg p₁.own.info p₁.members 0
          have g2 := fillLoop_predictions (E := E) p₁.cfg.concurrent preds ord [] ms
          rw [hp] at g1; rw [hf] at g2
          exact g2.trans g1
      have I2 : TargInv true p₂.launch.pool := (I1.1.congr hp (by rw [f2]) f3 f5 f6).congr rfl rfl rfl rfl rfl
      have hg := poolTest_fields E { t.pool.signal .postStep with own := { t.pool.own with stepCount := t.pool.own.stepCount + 1 } }
      have hgp := poolTest_predictions (E := E) { t.pool.signal .postStep with own := { t.pool.own with stepCount := t.pool.own.stepCount + 1 } }
      rw [h4] at hg hgp
      rcases exec_fresh h3 (by show p₂.cfg.usePredicted = true; rw [f3, I1.2.1, hc]; exact hu) I2 with J | ⟨e1, e2⟩
      · exact J.congr hgp (core_ext hg.2.1).1 hg.2.2.2.1 hg.2.2.2.2.2.1 hg.2.2.2.2.2.2
      · exfalso
        apply hb
        have hbest : p'.best = p.best := hg.2.2.2.2.2.1.trans (e1.trans (f5.trans I1.2.2.1))
        have hidx : p'.bestIdx = p.bestIdx := hg.2.2.2.2.2.2.trans (e2.trans (f6.trans I1.2.2.2))
        have ht : p'.target = p.target := by unfold Pool.target; rw [hinf', hinf, hbest, hidx]
        rw [t1, ht]
        by_cases hs0 : steppedOf ls = []
        · exfalso
          have h' : Pool.Hist E (Opt.Fits (Pool.init cfg info).own.info.minimize) (Pool.init cfg info) ls p := by rw [init_own]; exact hf
          have h'' : Pool.Hist E (Opt.Fits (Pool.init cfg info).own.info.minimize) (Pool.init cfg info) _ p' := h'.step st'
          obtain ⟨J, -⟩ := hist_best h' (init_best cfg info)
          obtain ⟨J', -⟩ := hist_best h'' (init_best cfg info)
          rw [List.nil_append] at J J'
          cases hx : p.bestIdx with
          | none =>
            obtain ⟨i, hi⟩ := List.exists_mem_of_ne_nil _ hs1
            have := J'.noneYet (hidx.trans hx) i hi
            simp at this
          | some k =>
            obtain ⟨h1, -⟩ := J.isBest k hx
            rw [hs0] at h1; cases h1
        · rw [if_neg hs0] at t0; exact t0.symm
  obtain ⟨k, hk⟩ := List.getElem?_of_mem hm
  obtain ⟨T, h1, h2⟩ := key k m hk
  rw [hcfg] at h1
  refine ⟨T, h1, ?_⟩
  rcases h2 with rfl | ⟨h, -⟩
  · exact t1
  · cases h

theorem testLoop_none (cs : List Cond) : ∀ (k : Nat) (v v' : Vis), testLoop E k cs v = (v', .ok none) → ∀ c ∈ cs, (c.test E v).2 = .ok false := by
  induction cs with
  | nil => intro k v v' _ c hc; cases hc
  | cons d cs ih =>
    intro k v v' h c hc
    simp only [testLoop] at h
    rcases hd : d.test E v with ⟨w, x⟩
    rw [hd] at h
    cases x with
    | err => cases h
    | ub => cases h
    | ok b =>
      cases b with
      | true => cases h
      | false =>
        rcases List.mem_cons.1 hc with rfl | hc
        · rw [hd]
        · have := ih (k + 1) w v' h c hc
          rcases test_fst (E := E) d v with e | e <;> rw [hd] at e <;> dsimp only at e <;> subst e
          · exact this
          · rw [test_ft] at this; exact this

/-- **C100.** So a member goes on beyond `prediction_start` steps only if it is predicted to beat the pool: whenever the test of its stop conditions finds none, what it is predicted to reach
`prediction_look_ahead` steps later is better than the best fitness of the pool. -/
theorem C100_only_promising (cfg : PoolCfg) (hu : cfg.usePredicted = true) (info : ObjInfo) {ls : List (List Nat × List Nat)} {p0 p : Pool}
    (h0 : Pool.Hist E (Opt.Plain info.minimize) (Pool.init cfg info) [] p0) (h : Pool.Hist E (fun _ => False) p0 ls p) (hs : steppedOf ls ≠ []) {m : Opt} (hm : m ∈ p.members)
    (hg : (m.testStop E).2 = .ok none) (hst : cfg.start ≤ m.vis.stepCount) :
    ∃ best pf, p.bestFitness = .ok best ∧ (m.vis.predictedFitness E cfg.lookAhead).2 = .ok pf ∧ info.isBetter pf best = true := by
  obtain ⟨T, h1, h2⟩ := C100_targets cfg hu info h0 h hm
  rw [if_neg hs] at h2
  have hh : Pool.Hist E (Opt.Fits info.minimize) (Pool.init cfg info) ls p := by
    have := Hist_trans (hist_mono (fun _ h => h.1) h0) (hist_mono (Q := Opt.Fits info.minimize) (fun _ h => h.elim) h)
    simpa using this
  obtain ⟨-, hmin, -⟩ := best_target hh
  have hc : Cond.predicted T cfg.lookAhead cfg.start ∈ m.conds := by
    have : Cond.predicted T cfg.lookAhead cfg.start ∈ m.conds.filter Cond.isPredicted := by rw [h1]; exact List.mem_cons_self
    exact (List.mem_filter.1 this).1
  have hf : ((Cond.predicted T cfg.lookAhead cfg.start).test E m.vis).2 = .ok false := by
    unfold Opt.testStop at hg
    split at hg
    · cases hg
    · split at hg
      · cases hg
      · rename_i v r hne heq
        dsimp only at hg
        subst hg
        exact testLoop_none m.conds 0 m.vis v heq _ hc
  simp only [Cond.test] at hf
  rw [if_pos hst] at hf
  rcases hp : m.vis.predictedFitness E cfg.lookAhead with ⟨v', x⟩
  rw [hp] at hf
  cases x with
  | err => cases hf
  | ub => cases hf
  | ok pf =>
    refine ⟨T, pf, h2, rfl, ?_⟩
    have := Res.ok.inj hf
    rw [isBetter_minimize (hmin m hm)] at this
    simpa using this

/-- The target, look ahead and start of a predicted fitness condition. -/
def Cond.prediction : Cond → Option (Dbl × Nat × Nat)
  | .predicted f a n => some (f, a, n)
  | _ => none

/-- What holds at the end of a computed history that starts with one push holds for some history. -/
theorem exists_hist_from {E : OptEnv} {cfg : PoolCfg} {m : Opt} (hm : m.Fits optInfo.minimize) {w : List ((Nat → In) × List Nat)} {P : List (List Nat × List Nat) → Pool → Prop}
    [∀ ls p, Decidable (P ls p)]
    (h : (match Pool.runs E w ((Pool.init cfg optInfo).push m) with | some (ls, p) => decide (P ls p) | none => false) = true) :
    ∃ ls p, Pool.Hist E (Opt.Fits optInfo.minimize) (Pool.init cfg optInfo) ls p ∧ P ls p := by
  have h0 : Pool.Hist E (Opt.Fits optInfo.minimize) (Pool.init cfg optInfo) [] ((Pool.init cfg optInfo).push m) := Pool.Hist.nil.push hm
  split at h
  · rename_i ls p hr
    exact ⟨ls, p, by simpa using runs_sound w _ _ [] h0 ls p hr, by simpa using h⟩
  · cases h

/-- **C100 (finding).** An optimizer with a predicted fitness condition of its own (target 1, look ahead 7, start 5): the pool changes the target of that condition, and the one of the condition that
the pool added is not updated. -/
theorem C100_own_condition : ∃ ls p, Pool.Hist optEnv (Opt.Fits optInfo.minimize) (Pool.init { usePredicted := true } optInfo) ls p ∧ (p.bestFitness = .ok (.fin 3) ∧
    p.members.map (fun m => m.conds.filterMap Cond.prediction) = [[(.fin 3, 7, 5), (optInfo.worstFitness, ({ } : PoolCfg).lookAhead, ({ } : PoolCfg).start)]]) :=
  exists_hist_from (m := (Opt.new optInfo 0).addCond (.predicted (.fin 1) 7 5)) ⟨by decide, by decide⟩ (w := [(fitIns (fun _ => some 3), [0])]) (by decide +kernel)

theorem newPool_plain {E : OptEnv} (cfg : PoolCfg) (n : Nat) : Pool.Hist E (Opt.Plain optInfo.minimize) (Pool.init cfg optInfo) [] (newPool cfg n) := by
  induction n with
  | zero => exact .nil
  | succ n ih => exact ih.push ⟨⟨by decide, by decide⟩, by intro f a n h; simp [Opt.new, Opt.init, Opt.addCond] at h⟩

/-- What a computed history without pushes shows. -/
theorem exists_hist_fixed {E : OptEnv} {p0 : Pool} {w : List ((Nat → In) × List Nat)} {P : List (List Nat × List Nat) → Pool → Prop} [∀ ls p, Decidable (P ls p)]
    (h : (match Pool.runs E w p0 with | some (ls, p) => decide (P ls p) | none => false) = true) : ∃ ls p, Pool.Hist E (fun _ => False) p0 ls p ∧ P ls p := by
  split at h
  · rename_i ls p hr
    exact ⟨ls, p, by simpa using runs_sound w _ _ [] .nil ls p hr, by simpa using h⟩
  · cases h

/-- Two plain members, two steps: both have the best fitness of the pool as target. -/
example : ∃ ls p, Pool.Hist optEnv (fun _ => False) (newPool { usePredicted := true } 2) ls p ∧ (steppedOf ls = [0, 1, 0, 1] ∧ p.bestFitness = .ok (.fin 3) ∧
    p.members.map (fun m => m.conds.filterMap Cond.prediction) = [[(.fin 3, ({ } : PoolCfg).lookAhead, ({ } : PoolCfg).start)], [(.fin 3, ({ } : PoolCfg).lookAhead, ({ } : PoolCfg).start)]]) :=
  exists_hist_fixed (w := [(fitIns (fun i => some (5 - i)), [0, 1]), (fitIns (fun i => some (4 - i)), [0, 1])]) (by decide +kernel)

/-- Members for which the test finds no stop condition after `prediction_start` steps exist: the prediction is -5, the best fitness 3. -/
example : ∃ ls p, Pool.Hist predEnv (fun _ => False) (newPool { window := 10, start := 1, lookAhead := 1, usePredicted := true } 1) ls p ∧
    (p.members.map (fun m => (decide ((m.testStop predEnv).2 = .ok none), decide (1 ≤ m.vis.stepCount))) = [(true, true)] ∧ p.bestFitness = .ok (.fin 3)) :=
  exists_hist_fixed (w := [(fitIns (fun _ => some 3), [0]), (fitIns (fun _ => some 3), [0])]) (by decide +kernel)

end Spot
