import Verif.Props.PoolEnd

/-!
# The step of a pool always comes to an end (C98)
-/

namespace Spot

variable {E : OptEnv}

/-- The moment in a step of `p` when the threads have been started. -/
def Pool.Launched (E : OptEnv) (p : Pool) (r : RunSt) : Prop :=
  ∃ p₁ sel p₂, p₁ = (if p.own.stepCount = 0 then p.signal .start else p).signal .preStep ∧ Refill E p₁ sel p₂ ∧ r = p₂.launch

/-- Indices are valid, and the members have the condition they get from `push_back`. -/
structure PoolOk (p : Pool) : Prop where
  best : ∀ k, p.bestIdx = some k → k < p.members.length
  queue : ∀ i ∈ p.queue, i < p.members.length
  pred : p.cfg.usePredicted = true → ∀ m ∈ p.members, hasPred m.conds

theorem setError_pred {cs : List Cond} (h : hasPred cs) : hasPred (setError cs) := by
  obtain ⟨f, a, n, h⟩ := h
  refine ⟨f, a, n, ?_⟩
  induction cs with
  | nil => simp at h
  | cons c cs ih =>
    rcases List.mem_cons.1 h with rfl | h'
    · simp [setError]
    · have := ih h'
      cases c <;> simp [setError, h', this]

theorem step_pred (E : OptEnv) (i : In) (m : Opt) (h : hasPred m.conds) : hasPred (m.step E (Opt.internal E i)).1.conds := by
  have hint : (Opt.internal E i m.begun).1.conds = m.begun.conds ∨ (Opt.internal E i m.begun).1.conds = setError m.begun.conds := by
    obtain ⟨-, -, e3, -⟩ := evaluateStep_later E m.begun i.pop i.res
    unfold Opt.internal
    dsimp only
    split
    · exact e3
    · exact e3
  have hs : hasPred (Opt.internal E i m.begun).1.conds := by
    rw [begun_conds] at hint
    rcases hint with h1 | h1 <;> rw [h1]
    · exact h
    · exact setError_pred h
  unfold Opt.step
  split
  · exact h
  · change hasPred (match Opt.internal E i m.begun with
      | (s, .ok true) =>
        ({ s.signal .postStep with vis := { (s.signal .postStep).vis with stepCount := (s.signal .postStep).vis.stepCount + 1 } } : Opt).testStop E
      | (s, .ok false) => s.testStop E
      | (s, .err) => (s, .err)
      | (s, .ub) => (s, .ub)).1.conds
    rcases hi : Opt.internal E i m.begun with ⟨s, r⟩
    rw [hi] at hs
    cases r with
    | ok b => cases b with
      | true => dsimp only; rw [testStop_conds]; exact hs
      | false => dsimp only; rw [testStop_conds]; exact hs
    | err => exact hs
    | ub => exact hs

theorem setTargets_ok (f : Dbl) (ms : List Opt) (h : ∀ m ∈ ms, hasPred m.conds) : (setTargets f ms).2 = true := by
  have one : ∀ cs : List Cond, hasPred cs → ∃ cs', setTarget f cs = some cs' := by
    intro cs
    induction cs with
    | nil => rintro ⟨_, _, _, h⟩; simp at h
    | cons c cs ih =>
      rintro ⟨g, a, n, h⟩
      cases c with
      | predicted x y z => exact ⟨_, rfl⟩
      | _ =>
        rcases List.mem_cons.1 h with h | h
        · cases h
        · obtain ⟨d, hd⟩ := ih ⟨g, a, n, h⟩
          exact ⟨_, by simp only [setTarget, hd]; rfl⟩
  induction ms with
  | nil => rfl
  | cons m ms ih =>
    obtain ⟨cs, hcs⟩ := one m.conds (h m (by simp))
    simp only [setTargets, hcs]
    exact ih (fun m hm => h m (by simp [hm]))

/-- Looking at a future never fails. -/
theorem collect_total {p : Pool} (I : PoolOk p) {i : Nat} (hi : i < p.members.length) : ∃ p', p.collect i = (p', .ok ()) ∧
    (∀ k, p'.bestIdx = some k → k < p'.members.length) := by
  have hm := List.getElem?_eq_getElem hi
  have best : ∀ q : Pool, (∃ k, q.bestIdx = some k ∧ k < q.members.length) → ∃ b, q.bestMember = .ok b := by
    rintro q ⟨k, h, hk⟩
    unfold Pool.bestMember
    rw [h]
    dsimp only
    rw [List.getElem?_eq_getElem hk]
    exact ⟨_, rfl⟩
  rcases hc : p.collect i with ⟨p', x⟩
  have hx : x = .ok () ∧ (∀ k, p'.bestIdx = some k → k < p'.members.length) := by
    unfold Pool.collect at hc
    rw [hm] at hc
    dsimp only at hc
    generalize hnb : (p.bestIdx.isNone || p.own.info.isBetter p.members[i].vis.bestFitness p.best) = nb at hc
    have fin : ∀ (q : Pool) (nb' : Bool), (∃ k, q.bestIdx = some k ∧ k < q.members.length) → (match q.bestMember with
        | .ok b => (q.signal (.postEvaluate [] b.vis.curFitnesses nb'), Res.ok ())
        | _ => (q, .ub)) = (p', x) → x = .ok () ∧ (∀ k, p'.bestIdx = some k → k < p'.members.length) := by
      intro q nb' hq h
      obtain ⟨b, hb⟩ := best q hq
      rw [hb] at h
      obtain ⟨k, h1, h2⟩ := hq
      cases h
      refine ⟨rfl, fun j hj => ?_⟩
      have : q.bestIdx = some j := hj
      rw [h1] at this; cases this
      exact h2
    cases nb with
    | false =>
      rw [if_pos (by simp)] at hc
      refine fin p false ?_ hc
      cases hb : p.bestIdx with
      | none => rw [hb] at hnb; simp at hnb
      | some k => exact ⟨k, rfl, I.best k hb⟩
    | true =>
      cases hu : p.cfg.usePredicted with
      | false =>
        simp only [hu, Bool.and_false, Bool.false_eq_true, if_false, if_true] at hc
        refine fin _ true ?_ hc
        exact ⟨i, rfl, hi⟩
      | true =>
        have hok := setTargets_ok p.members[i].vis.bestFitness p.members (I.pred hu)
        have hlen := (setTargets_later p.members[i].vis.bestFitness p.members).1
        simp only [hu, Bool.and_true, if_true, hok] at hc
        refine fin _ true ?_ hc
        exact ⟨i, rfl, by show i < (setTargets _ p.members).1.length; rw [hlen]; exact hi⟩
  exact ⟨p', by rw [hx.1], hx.2⟩

theorem PoolOk.later {p q : Pool} (I : PoolOk p) (hl : LaterL p.members q.members) (hb : q.bestIdx = p.bestIdx) (hq : q.queue = p.queue)
    (hc : q.cfg = p.cfg) : PoolOk q := by
  refine ⟨by rw [hb, hl.1]; exact I.best, by rw [hq, hl.1]; exact I.queue, ?_⟩
  rw [hc]
  intro hu m hm
  obtain ⟨k, hk⟩ := List.getElem?_of_mem hm
  obtain ⟨m0, h0, hl0⟩ := hl.2 k m hk
  exact hl0.pred (I.pred hu m0 (List.mem_of_getElem? h0))

/-- The same while the threads are running; only an exception of a member can be what leaves the function. -/
structure RunOk (r : RunSt) : Prop where
  pool : PoolOk r.pool
  running : ∀ i ∈ r.running, i < r.pool.members.length
  futs : ∀ i ∈ r.futs, i < r.pool.members.length
  threw : r.threw = true → r.failed ≠ []

theorem PoolOk.set {p : Pool} (I : PoolOk p) {i : Nat} {m : Opt} (hm : hasPred m.conds ∨ p.cfg.usePredicted = false) :
    PoolOk { p with members := p.members.set i m } := by
  refine ⟨by simpa using I.best, by simpa using I.queue, ?_⟩
  intro hu u hu'
  rcases List.mem_or_eq_of_mem_set hu' with h | h
  · exact I.pred hu u h
  · subst h
    rcases hm with hm | hm
    · exact hm
    · change p.cfg.usePredicted = true at hu
      rw [hm] at hu; cases hu

theorem RunOk.step {ins : Nat → In} {r t : RunSt} (I : RunOk r) (st : RunStep E ins r t) : RunOk t := by
  have hset : ∀ {i : Nat} {m : Opt}, r.pool.members[i]? = some m →
      hasPred (m.step E (Opt.internal E (ins i))).1.conds ∨ r.pool.cfg.usePredicted = false := by
    intro i m hm
    cases hu : r.pool.cfg.usePredicted with
    | false => exact .inr rfl
    | true => exact .inl (step_pred E _ m (I.pool.pred hu m (List.mem_of_getElem? hm)))
  cases st with
  | finish h hm hs =>
    have := hset hm
    rw [hs] at this
    exact ⟨I.pool.set this, fun j hj => by simpa using I.running j (List.mem_of_mem_erase hj), by simpa using I.futs, I.threw⟩
  | fail h hm hs =>
    have := hset hm
    rw [hs] at this
    exact ⟨I.pool.set this, fun j hj => by simpa using I.running j (List.mem_of_mem_erase hj), by simpa using I.futs, by simp⟩
  | @collect i is p h hr hf hc =>
    have hi : i < r.pool.members.length := I.futs i (by rw [h]; simp)
    obtain ⟨p', h1, h2⟩ := collect_total I.pool hi
    rw [hc] at h1
    cases h1
    have hl := collect_later hc
    have hcf := collect_fields hc
    refine ⟨⟨h2, ?_, ?_⟩, ?_, ?_, I.threw⟩
    · dsimp only; rw [hcf.2.2.1, hl.1]; exact I.pool.queue
    · dsimp only; rw [hcf.2.2.2.1]
      intro hu m hm
      obtain ⟨k, hk⟩ := List.getElem?_of_mem hm
      obtain ⟨m0, h0, hl0⟩ := hl.2 k m hk
      exact hl0.pred (I.pool.pred hu m0 (List.mem_of_getElem? h0))
    · dsimp only; rw [hl.1]; exact I.running
    · dsimp only; rw [hl.1]; exact fun j hj => I.futs j (by rw [h]; simp [hj])
  | @throws i is p h hr hf hc =>
    obtain ⟨p', h1, h2⟩ := collect_total I.pool (I.futs i (by rw [h]; simp))
    rw [hc] at h1
    cases h1
  | rethrow h hr hf => exact ⟨I.pool, I.running, by simp, fun _ => List.ne_nil_of_mem hf⟩
  | interrupt =>
    have hl := interrupt_later r.pool.members
    exact ⟨I.pool.later hl rfl rfl rfl, by simpa [Pool.interrupt] using I.running, by simpa [Pool.interrupt] using I.futs, I.threw⟩

theorem RunOk.exec {ins : Nat → In} {r t : RunSt} (I : RunOk r) (h : RunExec E ins r t) : RunOk t := by
  induction h with
  | nil => exact I
  | snoc _ st ih => exact ih.step st

theorem refill_ok {p p' : Pool} {sel : List Nat} (I : PoolOk p) (h : Refill E p sel p') : PoolOk p' := by
  have hl := refill_later h
  obtain ⟨f1, f2, f3, f4, f5, f6, f7, f8, f9⟩ := refill_fields h
  obtain ⟨g1, g2, g3⟩ := refill_sel E h
  refine ⟨by rw [f6, hl.1]; exact I.best, ?_, ?_⟩
  · rw [f8]
    intro i hi
    rcases List.mem_append.1 hi with hi | hi
    · rw [hl.1]; exact I.queue i hi
    · obtain ⟨m, hm, -⟩ := g2 i hi
      exact (List.getElem?_eq_some_iff.1 hm).1
  · rw [f3]
    intro hu m hm
    obtain ⟨k, hk⟩ := List.getElem?_of_mem hm
    obtain ⟨m0, h0, hl0⟩ := hl.2 k m hk
    exact hl0.pred (I.pred hu m0 (List.mem_of_getElem? h0))

theorem launched_ok {p : Pool} (I : PoolOk p) {r : RunSt} (h : p.Launched E r) : RunOk r := by
  obtain ⟨p₁, sel, p₂, h1, h2, rfl⟩ := h
  have I1 : PoolOk p₁ := by rw [h1]; split <;> exact I.later (.refl _) rfl rfl rfl
  have I2 := refill_ok I1 h2
  refine ⟨⟨I2.best, fun i hi => I2.queue i (List.mem_of_mem_drop hi), I2.pred⟩, ?_, ?_, by intro h; cases h⟩
  · exact fun i hi => I2.queue i (List.mem_of_mem_take hi)
  · exact fun i hi => I2.queue i (List.mem_of_mem_take hi)

theorem hist_ok (cfg : PoolCfg) (info : ObjInfo) {P : Opt → Prop} {ls : List (List Nat × List Nat)} {p : Pool}
    (h : Pool.Hist E P (Pool.init cfg info) ls p) : PoolOk p := by
  generalize hp0 : Pool.init cfg info = p0 at h
  induction h with
  | nil => subst hp0; exact ⟨by simp [Pool.init], by simp [Pool.init], by simp [Pool.init]⟩
  | @step q q' ls sel run ins r h st ih =>
    have ih := ih
    cases st with
    | @mk p₁ p₂ _ t _ _ hd hne h1 h2 h3 hend h4 =>
      have I := (launched_ok ih (E := E) ⟨p₁, sel, p₂, h1, h2, rfl⟩).exec h3
      have hl4 := poolTest_later E { t.pool.signal .postStep with own := { t.pool.own with stepCount := t.pool.own.stepCount + 1 } }
      have hf := poolTest_fields E { t.pool.signal .postStep with own := { t.pool.own with stepCount := t.pool.own.stepCount + 1 } }
      rw [h4] at hl4 hf
      exact I.pool.later hl4 hf.2.2.2.2.2.2 hf.2.2.1 hf.2.2.2.1
  | @push q ls m h hm ih =>
    have ih := ih
    obtain ⟨m', hm', hpr⟩ : ∃ m', (q.push m).members = q.members ++ [m'] ∧ (q.cfg.usePredicted = true → hasPred m'.conds) := by
      unfold Pool.push
      dsimp only
      refine ⟨_, rfl, fun hu => ?_⟩
      rw [if_pos hu]
      exact ⟨q.own.info.worstFitness, q.cfg.lookAhead, q.cfg.start, by simp [Opt.addCond]⟩
    refine ⟨fun k hk => ?_, fun i hi => ?_, fun hu u hu' => ?_⟩
    · have := ih.best k hk
      rw [hm', List.length_append]; omega
    · have := ih.queue i hi
      rw [hm', List.length_append]; omega
    · rw [hm'] at hu'
      rcases List.mem_append.1 hu' with h | h
      · exact ih.pred hu u h
      · simp only [List.mem_singleton] at h; subst h; exact hpr hu
  | @addCond q ls c h ih => exact ih.later (.refl _) rfl rfl rfl
  | interrupt h ih => exact ih.later (interrupt_later _) rfl rfl rfl
  | @test q ls h ih =>
    have hf := poolTest_fields E q
    exact ih.later (poolTest_later E q) hf.2.2.2.2.2.2 hf.2.2.1 hf.2.2.2.1

/-- How much is left to do: threads that are running and futures to look at. -/
def RunSt.todo (r : RunSt) : Nat := r.running.length + r.futs.length

/-- **C98.** Everything that happens in a step of a pool, other than interrupts, brings it closer to its end: with `c` concurrent members
at most `2 c` things happen. -/
theorem C98_bounded {ins : Nat → In} {r t : RunSt} (h : RunStep E ins r t) :
    t = { r with pool := r.pool.interrupt } ∨ t.todo < r.todo := by
  unfold RunSt.todo
  cases h with
  | finish h hm hs =>
    have := List.length_erase_of_mem h
    have := List.length_pos_of_mem h
    right; dsimp only; omega
  | fail h hm hs =>
    have := List.length_erase_of_mem h
    have := List.length_pos_of_mem h
    right; dsimp only; omega
  | collect h => right; dsimp only; rw [h]; simp
  | throws h => right; dsimp only; rw [h]; simp
  | rethrow h => right; dsimp only; rw [h]; simp
  | interrupt => exact .inl rfl

open Classical in
/-- **C98.** In a step of a pool at most `2 c` things happen that are not interrupts, `c` being the option `concurrent_optimizations`. -/
theorem C98_events {p : Pool} {ins : Nat → In} (K : Nat) (σ : Nat → RunSt) (hl : p.Launched E (σ 0)) (hs : ∀ k < K, RunStep E ins (σ k) (σ (k + 1))) :
    ((Finset.range K).filter fun k => σ (k + 1) ≠ { σ k with pool := (σ k).pool.interrupt }).card ≤ 2 * p.cfg.concurrent := by
  have h0 : (σ 0).todo ≤ 2 * p.cfg.concurrent := by
    obtain ⟨p₁, sel, p₂, h1, h2, hr⟩ := hl
    have c1 : p₁.cfg = p.cfg := by rw [h1]; split <;> rfl
    have c2 : p₂.cfg = p₁.cfg := by cases h2 <;> rfl
    rw [hr, RunSt.todo, Pool.launch]
    dsimp only
    rw [c2, c1]
    have := List.length_take_le p.cfg.concurrent p₂.queue
    omega
  have key : ∀ K, (∀ k < K, RunStep E ins (σ k) (σ (k + 1))) →
      ((Finset.range K).filter fun k => σ (k + 1) ≠ { σ k with pool := (σ k).pool.interrupt }).card + (σ K).todo ≤ (σ 0).todo := by
    intro K
    induction K with
    | zero => intro _; simp
    | succ K ih =>
      intro hs
      have h1 := ih fun k hk => hs k (by omega)
      rw [Finset.range_add_one, Finset.filter_insert]
      rcases C98_bounded (hs K (by omega)) with h | h
      · rw [if_neg (by simpa using h)]
        have : (σ (K + 1)).todo = (σ K).todo := by rw [h]; rfl
        omega
      · split
        · rw [Finset.card_insert_of_notMem (by simp)]; omega
        · omega
  have := key K hs
  omega

/-- **C98.** A step of a pool cannot get stuck: at any moment, whatever the schedule was so far, if a thread is running or a future has not
been looked at, something can happen. (Unless the step of a member has undefined behaviour.) -/
theorem C98_no_deadlock (cfg : PoolCfg) (info : ObjInfo) {P : Opt → Prop} {ls : List (List Nat × List Nat)} {p : Pool}
    (h : Pool.Hist E P (Pool.init cfg info) ls p) {r t : RunSt} (hl : p.Launched E r) {ins : Nat → In} (hx : RunExec E ins r t)
    (hub : ∀ i ∈ t.running, ∀ m, t.pool.members[i]? = some m → (m.step E (Opt.internal E (ins i))).2 ≠ .ub)
    (hne : ¬ (t.running = [] ∧ t.futs = [])) : ∃ t', RunStep E ins t t' ∧ t'.todo < t.todo := by
  have I := (launched_ok (hist_ok cfg info h) hl).exec hx
  have key : ∃ t', RunStep E ins t t' ∧ t' ≠ { t with pool := t.pool.interrupt } := by
    cases hr : t.running with
    | cons i is =>
      have hi : i ∈ t.running := by rw [hr]; simp
      have hm := List.getElem?_eq_getElem (I.running i hi)
      have hub := hub i hi _ hm
      rcases hs : (t.pool.members[i]'(I.running i hi)).step E (Opt.internal E (ins i)) with ⟨m', x⟩
      have hne' : (t.running.erase i) ≠ t.running := by
        intro he
        have := List.length_erase_of_mem hi
        rw [he] at this
        have := List.length_pos_of_mem hi
        omega
      cases x with
      | ok x => exact ⟨_, .finish hi hm hs, fun h => hne' ((congrArg RunSt.running h).trans hr.symm)⟩
      | err => exact ⟨_, .fail hi hm hs, fun h => hne' ((congrArg RunSt.running h).trans hr.symm)⟩
      | ub => rw [hs] at hub; exact absurd rfl hub
    | nil =>
      cases hf : t.futs with
      | nil => exact absurd ⟨hr, hf⟩ hne
      | cons i is =>
        have hi : i ∈ t.futs := by rw [hf]; simp
        by_cases hfa : i ∈ t.failed
        · exact ⟨_, .rethrow hf (by rw [hr]; simp) hfa, fun h => by have := congrArg RunSt.futs h; simp [hf] at this⟩
        · obtain ⟨p', hc, -⟩ := collect_total I.pool (I.futs i hi)
          exact ⟨_, .collect hf (by rw [hr]; simp) hfa hc, fun h => by have := congrArg RunSt.futs h; simp [hf] at this⟩
  obtain ⟨t', st, hne'⟩ := key
  rcases C98_bounded st with h | h
  · exact absurd h hne'
  · exact ⟨t', st, h⟩

/-- **C98.** At any moment the step can still come to its end (and by `C98_bounded` it does, unless interrupts never cease). -/
theorem C98_ends (cfg : PoolCfg) (info : ObjInfo) {P : Opt → Prop} {ls : List (List Nat × List Nat)} {p : Pool}
    (h : Pool.Hist E P (Pool.init cfg info) ls p) {r t : RunSt} (hl : p.Launched E r) {ins : Nat → In} (hx : RunExec E ins r t)
    (hub : ∀ s, RunExec E ins r s → ∀ i ∈ s.running, ∀ m, s.pool.members[i]? = some m → (m.step E (Opt.internal E (ins i))).2 ≠ .ub) :
    ∃ t', RunExec E ins t t' ∧ t'.running = [] ∧ t'.futs = [] := by
  induction hn : t.todo using Nat.strong_induction_on generalizing t with
  | _ n ih =>
    by_cases hne : t.running = [] ∧ t.futs = []
    · exact ⟨t, .nil, hne⟩
    · obtain ⟨t', st, hlt⟩ := C98_no_deadlock cfg info h hl hx (hub t hx) hne
      obtain ⟨u, hu, hend⟩ := ih t'.todo (by omega) (hx.snoc st) rfl
      exact ⟨u, (RunExec.nil.snoc st).trans hu, hend⟩

/-- **C98.** When it has ended, an exception leaves the function exactly if the step of a member threw one: the pool itself throws
nothing, and it drops no exception of a member. -/
theorem C98_exception (cfg : PoolCfg) (info : ObjInfo) {P : Opt → Prop} {ls : List (List Nat × List Nat)} {p : Pool}
    (h : Pool.Hist E P (Pool.init cfg info) ls p) {r t : RunSt} (hl : p.Launched E r) {ins : Nat → In} (hx : RunExec E ins r t)
    (hend : t.running = [] ∧ t.futs = []) : t.threw = true ↔ t.failed ≠ [] := by
  have I := (launched_ok (hist_ok cfg info h) hl).exec hx
  refine ⟨I.threw, fun hf => ?_⟩
  by_contra hth
  rw [Bool.not_eq_true] at hth
  obtain ⟨p₁, sel, p₂, h1, h2, rfl⟩ := hl
  have := (failed_futs hx rfl (List.Subset.refl _) hth).1
  rw [hend.2] at this
  exact hf (List.subset_nil.1 this)

/-- An optimizer without parameters. -/
def noPars : Opt := Opt.new { optInfo with pars := [] } 0

/-- A pool with a member whose step throws (it has no parameters): the exception leaves the step of the pool. -/
example : ∃ (r t : RunSt), ((newPool {} 0).push noPars).Launched optEnv r ∧ RunExec optEnv (fitIns (fun _ => some 1)) r t ∧
    r.futs = [0] ∧ t.running = [] ∧ t.futs = [] ∧ t.failed = [0] ∧ t.threw = true := by
  have h1 : (match refillWith optEnv [0] (((newPool {} 0).push noPars).signal .start |>.signal .preStep) with
    | some (_, p₂) => decide (p₂.launch.futs = [0]) && decide (p₂.members.map (fun m => m.vis.info.dim) = [0])
    | none => false) = true := by decide +kernel
  split at h1
  · rename_i sel p₂ hr
    simp only [Bool.and_eq_true, decide_eq_true_eq] at h1
    obtain ⟨g1, g2⟩ := h1
    have hm : ∃ m, p₂.members = [m] ∧ m.vis.info.dim = 0 := by
      rcases hx : p₂.members with _ | ⟨m, _ | ⟨m', ms⟩⟩ <;> rw [hx] at g2 <;> simp at g2
      exact ⟨m, rfl, g2⟩
    obtain ⟨m, hm, hd⟩ := hm
    have st1 := RunStep.fail (E := optEnv) (ins := fitIns (fun _ => some 1)) (r := p₂.launch) (i := 0) (m := m) (m' := m)
      (by change 0 ∈ p₂.launch.futs; rw [g1]; simp) (by show p₂.members[0]? = _; rw [hm]; rfl) (by unfold Opt.step; rw [if_pos hd])
    have st2 := RunStep.rethrow (E := optEnv) (ins := fitIns (fun _ => some 1))
      (r := { p₂.launch with
        pool := { p₂.launch.pool with members := p₂.launch.pool.members.set 0 m }, running := p₂.launch.running.erase 0, failed := 0 :: p₂.launch.failed })
      (i := 0) (is := []) g1 (by change 0 ∉ p₂.launch.futs.erase 0; rw [g1]; decide) (by simp)
    refine ⟨_, _, ⟨_, sel, p₂, ?_, refillWith_sound hr, rfl⟩, (RunExec.nil.snoc st1).snoc st2, g1, ?_, rfl, rfl, rfl⟩
    · rw [if_pos (by decide)]
    · change p₂.launch.futs.erase 0 = []; rw [g1]; decide
  · cases h1

end Spot
